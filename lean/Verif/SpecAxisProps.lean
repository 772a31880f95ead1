import Verif.SpecAxis
import Mathlib.Tactic.Ring
import Mathlib.Tactic.Linarith
import Mathlib.Tactic.FieldSimp
import Mathlib.Tactic.Positivity
import Mathlib.Algebra.Order.BigOperators.Group.List
import Mathlib.Analysis.SpecialFunctions.Pow.Real

/-! # The x-axis of a spectrum: theorems (C149, C150) -/

namespace Verif.SpecAxis

open Classical

/-! ## Specification -/

/-- All steps from one number to the next are `h`. -/
def Even (x : List ℝ) (h : ℝ) : Prop := ∀ k, (hk : k + 1 < x.length) → x[k + 1] - x[k] = h

/-- Every number is `r` times the one before. -/
def Geometric (x : List ℝ) (r : ℝ) : Prop := ∀ k, (hk : k + 1 < x.length) → x[k + 1] = r * x[k]

/-- The mean step: the length of the axis divided by the number of steps. -/
noncomputable def meanStep (x : List ℝ) : ℝ := (x.getLastD 0 - x.headD 0) / ((x.length : ℝ) - 1)

/-! ## Sums -/

theorem sum_range_diff (g : Nat → ℝ) (m : Nat) : ((List.range m).map fun k => g (k + 1) - g k).sum = g m - g 0 := by
  induction m with
  | zero => simp
  | succ m ih => rw [List.range_succ, List.map_append, List.sum_append, ih]; simp

theorem getDx_eq (x : List ℝ) (hn : 2 ≤ x.length) :
    getDx x = .ok ((List.range (x.length - 1)).map fun k => x.getD (k + 1) 0 - x.getD k 0) := by
  have h1 : (x.isEmpty || [(1 : ℝ), -1].isEmpty) = false := by
    cases x with
    | nil => simp at hn
    | cons a l => rfl
  simp only [getDx, convValid, h1]
  rw [if_neg (by simp), if_neg (by simp; omega)]
  have h2 : x.length - 2 + 1 = x.length - 1 := by omega
  simp only [List.length_cons, List.length_nil, h2]
  congr 1
  apply List.map_congr_left
  intro k hk
  rw [List.range_succ, List.range_one]
  simp
  ring

/-- C149.  The spacing has one element less than the axis, and its elements are the steps. -/
theorem dx_exact (x : List ℝ) (hn : 2 ≤ x.length) :
    ∃ d, getDx x = .ok d ∧ d.length + 1 = x.length ∧ ∀ k, (hk : k + 1 < x.length) → d[k]? = some (x[k + 1] - x[k]) := by
  refine ⟨_, getDx_eq x hn, by simp; omega, ?_⟩
  intro k hk
  have h1 : k < x.length - 1 := by omega
  simp [h1, hk, show k < x.length by omega]

theorem getD_last (x : List ℝ) (hn : x ≠ []) : x.getD (x.length - 1) 0 = x.getLastD 0 := by
  rw [List.getLastD_eq_getLast?, List.getLast?_eq_getElem?, List.getD_eq_getElem?_getD]

theorem getD_get (x : List ℝ) {k : Nat} (hk : k < x.length) : x.getD k 0 = x[k] := by simp [hk]

theorem getD_head (x : List ℝ) : x.getD 0 0 = x.headD 0 := by cases x <;> rfl

theorem getDx_mean (x : List ℝ) (hn : 2 ≤ x.length) :
    mean ((List.range (x.length - 1)).map fun k => x.getD (k + 1) 0 - x.getD k 0) = meanStep x := by
  have hne : x ≠ [] := by rintro rfl; simp at hn
  rw [mean, sum_range_diff (fun k => x.getD k 0), getD_last x hne, getD_head, meanStep]
  simp only [List.length_map, List.length_range]
  rw [Nat.cast_sub (by omega)]
  simp

/-- C149.  The mean spacing is the length of the axis divided by the number of steps. -/
theorem dx_mean (x : List ℝ) (hn : 2 ≤ x.length) : getDxMean x = .ok (meanStep x) := by
  rw [getDxMean, getDx_eq x hn, ← getDx_mean x hn]
  rfl

/-- C149 (defect).  For a spectrum of one pixel, the spacing has two elements instead of none: the arguments of the
convolution change places. -/
theorem dx_one_pixel (a : ℝ) : getDx [a] = .ok [a, -a] ∧ getDxMean [a] = .ok 0 := by
  have h : getDx [a] = .ok [a, -a] := by
    simp [getDx, convValid, List.range_succ]
  refine ⟨h, ?_⟩
  rw [getDxMean, h]
  simp [mean, Except.map]

/-- C149.  An axis without pixels raises ValueError. -/
theorem dx_empty : getDx [] = .error .value := by simp [getDx, convValid]

/-! ## Standard deviations -/

theorem std_lt {l : List ℝ} (hl : l ≠ []) {eps : ℝ} (he : 0 < eps) :
    std l < eps ↔ (l.map fun d => (d - mean l) ^ 2).sum < eps ^ 2 * l.length := by
  have hp : (0 : ℝ) < l.length := by exact_mod_cast List.length_pos_iff.2 hl
  rw [std, Real.sqrt_lt' he, mean, List.length_map, div_lt_iff₀ hp]

theorem mean_const {l : List ℝ} (hl : l ≠ []) {c : ℝ} (h : ∀ d ∈ l, d = c) : mean l = c := by
  have hp : (0 : ℝ) < l.length := by exact_mod_cast List.length_pos_iff.2 hl
  have : l = List.replicate l.length c := List.eq_replicate_iff.2 ⟨rfl, h⟩
  rw [mean, div_eq_iff hp.ne']
  conv_lhs => rw [this]
  simp [mul_comm]

theorem std_const {l : List ℝ} (hl : l ≠ []) {c : ℝ} (h : ∀ d ∈ l, d = c) : std l = 0 := by
  have hm := mean_const hl h
  have : l.map (fun d => (d - mean l) ^ 2) = List.replicate l.length 0 := by
    rw [List.eq_replicate_iff]
    refine ⟨by simp, ?_⟩
    intro b hb
    obtain ⟨d, hd, rfl⟩ := List.mem_map.1 hb
    rw [hm, h d hd]; ring
  rw [std, this, mean]
  simp

theorem std_nonneg (l : List ℝ) : 0 ≤ std l := Real.sqrt_nonneg _

theorem sq_le_sum {l : List ℝ} {d m : ℝ} (hd : d ∈ l) : (d - m) ^ 2 ≤ (l.map fun d => (d - m) ^ 2).sum := by
  apply List.single_le_sum
  · intro b hb
    obtain ⟨e, he, rfl⟩ := List.mem_map.1 hb
    positivity
  · exact List.mem_map_of_mem hd

theorem close_of_std {l : List ℝ} (hl : l ≠ []) {eps : ℝ} (h : std l < eps) {d : ℝ} (hd : d ∈ l) :
    |d - mean l| < eps * Real.sqrt l.length := by
  have he : 0 < eps := lt_of_le_of_lt (std_nonneg l) h
  have h1 := (std_lt hl he).1 h
  have h2 := lt_of_le_of_lt (sq_le_sum (m := mean l) hd) h1
  apply abs_lt_of_sq_lt_sq _ (by positivity)
  rw [mul_pow, Real.sq_sqrt (by positivity)]
  exact h2

theorem std_of_close {l : List ℝ} (hl : l ≠ []) {eps : ℝ} (he : 0 < eps) (h : ∀ d ∈ l, |d - mean l| < eps) : std l < eps := by
  rw [std_lt hl he]
  have key : ∀ (m : ℝ) (k : List ℝ), k ≠ [] → (∀ d ∈ k, |d - m| < eps) → (k.map fun d => (d - m) ^ 2).sum < eps ^ 2 * k.length := by
    intro m k
    induction k with
    | nil => intro h; exact absurd rfl h
    | cons a k ih =>
      intro _ hk
      have ha : (a - m) ^ 2 < eps ^ 2 := by
        have := hk a (by simp)
        rw [← sq_abs (a - m)]
        exact pow_lt_pow_left₀ this (abs_nonneg _) (by norm_num)
      by_cases hk0 : k = []
      · subst hk0; simpa using ha
      · have := ih hk0 (fun d hd => hk d (by simp [hd]))
        simp only [List.map_cons, List.sum_cons, List.length_cons, Nat.cast_add, Nat.cast_one]
        nlinarith
  exact key _ l hl h

/-! ## The tests -/

theorem steps_ne_nil (x : List ℝ) (hn : 2 ≤ x.length) : ((List.range (x.length - 1)).map fun k => x.getD (k + 1) 0 - x.getD k 0) ≠ [] := by
  intro h
  have := congrArg List.length h
  simp at this
  omega

theorem mem_steps (x : List ℝ) {k : Nat} (hk : k + 1 < x.length) :
    x[k + 1] - x[k] ∈ ((List.range (x.length - 1)).map fun k => x.getD (k + 1) 0 - x.getD k 0) := by
  rw [List.mem_map]
  refine ⟨k, by simp; omega, ?_⟩
  simp [hk, show k < x.length by omega]

theorem steps_mem (x : List ℝ) {d : ℝ} (h : d ∈ ((List.range (x.length - 1)).map fun k => x.getD (k + 1) 0 - x.getD k 0)) :
    ∃ k, ∃ hk : k + 1 < x.length, d = x[k + 1] - x[k] := by
  obtain ⟨k, hk, rfl⟩ := List.mem_map.1 h
  have : k + 1 < x.length := by have := List.mem_range.1 hk; omega
  refine ⟨k, this, ?_⟩
  simp [this, show k < x.length by omega]

theorem isLinear_eq (x : List ℝ) (hn : 2 ≤ x.length) (eps : ℝ) :
    isLinear x eps = .ok (decide (std ((List.range (x.length - 1)).map fun k => x.getD (k + 1) 0 - x.getD k 0) < eps)) := by
  rw [isLinear, getDx_eq x hn]; rfl

/-- C149.  An evenly spaced axis passes the test for every tolerance. -/
theorem even_linear {x : List ℝ} (hn : 2 ≤ x.length) {h : ℝ} (hx : Even x h) {eps : ℝ} (he : 0 < eps) : isLinear x eps = .ok true := by
  rw [isLinear_eq x hn, std_const (steps_ne_nil x hn) (c := h)]
  · simp [he]
  · intro d hd
    obtain ⟨k, hk, rfl⟩ := steps_mem x hd
    exact hx k hk

/-- C149.  An axis that passes the test has every step within `eps` times the root of the number of steps of the mean step,
and an axis whose steps are all within `eps` of the mean step passes. -/
theorem linear_bounds {x : List ℝ} (hn : 2 ≤ x.length) {eps : ℝ} (he : 0 < eps) :
    (isLinear x eps = .ok true → ∀ k, (hk : k + 1 < x.length) → |x[k + 1] - x[k] - meanStep x| < eps * Real.sqrt (x.length - 1)) ∧
      ((∀ k, (hk : k + 1 < x.length) → |x[k + 1] - x[k] - meanStep x| < eps) → isLinear x eps = .ok true) := by
  rw [isLinear_eq x hn]
  constructor
  · intro h k hk
    have h' := of_decide_eq_true (Except.ok.inj h)
    have := close_of_std (steps_ne_nil x hn) h' (mem_steps x hk)
    rw [getDx_mean x hn] at this
    simpa [Nat.cast_sub (show 1 ≤ x.length by omega)] using this
  · intro h
    rw [decide_eq_true]
    apply std_of_close (steps_ne_nil x hn) he
    intro d hd
    obtain ⟨k, hk, rfl⟩ := steps_mem x hd
    rw [getDx_mean x hn]
    exact h k hk

/-- C149.  Passing the test for every tolerance means being evenly spaced. -/
theorem linear_iff_even {x : List ℝ} (hn : 2 ≤ x.length) :
    (∀ eps : ℝ, 0 < eps → isLinear x eps = .ok true) ↔ ∃ h, Even x h := by
  constructor
  · intro h
    refine ⟨meanStep x, fun k hk => ?_⟩
    by_contra hne
    have hpos : 0 < |x[k + 1] - x[k] - meanStep x| := abs_pos.2 (sub_ne_zero.2 hne)
    have hs : 0 < Real.sqrt ((x.length : ℝ) - 1) := by
      apply Real.sqrt_pos.2
      have : (2 : ℝ) ≤ x.length := by exact_mod_cast hn
      linarith
    have h1 := (linear_bounds hn (div_pos hpos hs)).1 (h _ (div_pos hpos hs)) k hk
    rw [div_mul_cancel₀ _ hs.ne'] at h1
    exact lt_irrefl _ h1
  · rintro ⟨h, hx⟩ eps he
    exact even_linear hn hx he

theorem isLogarithmic_eq (x : List ℝ) (eps : ℝ) : isLogarithmic x eps = isLinear (x.map log10) eps := rfl

theorem log10_sub {a b : ℝ} (ha : 0 < a) (hb : 0 < b) : log10 b - log10 a = log10 (b / a) := by
  rw [log10, log10, log10, Real.log_div hb.ne' ha.ne']; ring

theorem log10_inj {a b : ℝ} (ha : 0 < a) (hb : 0 < b) (h : log10 a = log10 b) : a = b := by
  have h10 : Real.log 10 ≠ 0 := Real.log_ne_zero_of_pos_of_ne_one (by norm_num) (by norm_num)
  rw [log10, log10, div_left_inj' h10] at h
  exact Real.log_injOn_pos ha hb h

/-- C149.  For a positive axis, passing the logarithmic test for every tolerance means that each value is the same multiple of
the one before. -/
theorem logarithmic_iff {x : List ℝ} (hn : 2 ≤ x.length) (hp : ∀ t ∈ x, 0 < t) :
    (∀ eps : ℝ, 0 < eps → isLogarithmic x eps = .ok true) ↔ ∃ r, Geometric x r := by
  simp only [isLogarithmic_eq]
  rw [linear_iff_even (by simpa using hn)]
  have hpos : ∀ k, (hk : k < x.length) → 0 < x[k] := fun k hk => hp _ (List.getElem_mem hk)
  constructor
  · rintro ⟨h, hx⟩
    refine ⟨x[1] / x[0], fun k hk => ?_⟩
    have e1 := hx k (by simpa using hk)
    have e0 := hx 0 (by simp; omega)
    simp only [List.getElem_map] at e1 e0
    rw [log10_sub (hpos k (by omega)) (hpos (k + 1) hk)] at e1
    rw [log10_sub (hpos 0 (by omega)) (hpos 1 (by omega))] at e0
    have := log10_inj (div_pos (hpos _ hk) (hpos k (by omega))) (div_pos (hpos 1 (by omega)) (hpos 0 (by omega))) (e1.trans e0.symm)
    rw [← this, div_mul_cancel₀ _ (hpos k (by omega)).ne']
  · rintro ⟨r, hr⟩
    refine ⟨log10 r, fun k hk => ?_⟩
    have hk' : k + 1 < x.length := by simpa using hk
    simp only [List.getElem_map]
    rw [log10_sub (hpos k (by omega)) (hpos (k + 1) hk'), hr k hk', mul_div_assoc, div_self (hpos k (by omega)).ne', mul_one]

/-- C149 (defect).  The test whether two axes match accepts axes that are any constant apart: it looks at the spread of the
differences, not at their size. -/
theorem shifted_axes_match {x : List ℝ} (hx : x ≠ []) (c : ℝ) {tol : ℝ} (ht : 0 < tol) : isXMatched x (x.map (· + c)) tol = true := by
  have hb : bsub x (x.map (· + c)) = some (List.replicate x.length (-c)) := by
    rw [bsub, if_pos (by simp)]
    congr 1
    rw [List.eq_replicate_iff]
    refine ⟨by simp, ?_⟩
    intro b hb
    rw [List.zipWith_map_right] at hb
    obtain ⟨a, ha, rfl⟩ : ∃ a ∈ x, a - (a + c) = b := by
      rw [List.zipWith_self] at hb
      obtain ⟨a, ha, h⟩ := List.mem_map.1 hb
      exact ⟨a, ha, h⟩
    ring
  have hne : List.replicate x.length (-c) ≠ [] := by
    intro h
    exact hx (List.length_eq_zero_iff.1 (by simpa using congrArg List.length h))
  simp only [isXMatched, hb]
  rw [if_neg (by simpa using hx), std_const hne (c := -c) (fun d hd => List.eq_of_mem_replicate hd)]
  simp [ht]

/-- C149.  For axes of the same length: the two are accepted for every tolerance exactly if they are a constant apart. -/
theorem matched_iff_shift {x y : List ℝ} (hl : x.length = y.length) (hx : x ≠ []) :
    (∀ tol : ℝ, 0 < tol → isXMatched x y tol = true) ↔ ∃ c, y = x.map (· + c) := by
  constructor
  · intro h
    have hb : bsub x y = some (List.zipWith (fun a b => a - b) x y) := by rw [bsub, if_pos hl]
    set d := List.zipWith (fun a b => a - b) x y with hd
    have hdl : d.length = x.length := by simp [hd, hl]
    have hdn : d ≠ [] := by
      intro h0
      exact hx (List.length_eq_zero_iff.1 (by rw [← hdl, h0]; rfl))
    have hall : ∀ e ∈ d, e = mean d := by
      intro e he
      by_contra hne
      have hpos : 0 < |e - mean d| := abs_pos.2 (sub_ne_zero.2 hne)
      have hs : 0 < Real.sqrt (d.length : ℝ) := Real.sqrt_pos.2 (by exact_mod_cast List.length_pos_iff.2 hdn)
      have h1 := h _ (div_pos hpos hs)
      simp only [isXMatched, hb] at h1
      rw [if_neg (by simpa using hdn)] at h1
      have h2 := close_of_std hdn (of_decide_eq_true h1) he
      rw [div_mul_cancel₀ _ hs.ne'] at h2
      exact lt_irrefl _ h2
    refine ⟨-mean d, ?_⟩
    apply List.ext_getElem (by simp [hl])
    intro k h1 h2
    have hk : k < d.length := by rw [hdl, hl]; exact h1
    have := hall d[k] (List.getElem_mem hk)
    simp only [hd, List.getElem_zipWith] at this
    simp only [List.getElem_map]
    linarith
  · rintro ⟨c, rfl⟩ tol ht
    exact shifted_axes_match hx c ht

/-- C149.  Axes of different lengths, neither of them one, never match. -/
theorem lengths_differ {x y : List ℝ} (h : x.length ≠ y.length) (h1 : x.length ≠ 1) (h2 : y.length ≠ 1) (tol : ℝ) :
    isXMatched x y tol = false := by
  simp [isXMatched, bsub, h, h1, h2]

/-! ## Interpolation -/

/-- C150.  Between two neighbouring pixels the interpolated value is on the straight line through them. -/
theorem interp_between : ∀ (xs fs : List ℝ), xs.Pairwise (· < ·) → (hl : fs.length = xs.length) → ∀ k, (hk : k + 1 < xs.length) → ∀ t : ℝ,
    xs[k] ≤ t → t ≤ xs[k + 1] → interp xs fs t = fs[k] + (fs[k + 1] - fs[k]) / (xs[k + 1] - xs[k]) * (t - xs[k])
  | [], _, _, _, _, hk, _, _, _ => by simp at hk
  | [_], _, _, _, _, hk, _, _, _ => by simp at hk
  | x0 :: x1 :: xs, [], _, hl, _, _, _, _, _ => by simp at hl
  | x0 :: x1 :: xs, [f0], _, hl, _, _, _, _, _ => by simp at hl
  | x0 :: x1 :: xs, f0 :: f1 :: fs, hp, hl, 0, _, t, h1, h2 => by
    have hp' := List.pairwise_cons.1 hp
    have h01 : x0 < x1 := hp'.1 x1 (by simp)
    simp only [List.getElem_cons_zero, List.getElem_cons_succ, zero_add] at h1 h2 ⊢
    rw [interp]
    by_cases ha : t ≤ x0
    · have : t = x0 := le_antisymm ha h1
      subst this; simp
    · rw [if_neg ha]
      by_cases hb : t < x1
      · rw [if_pos hb]
      · have e : t = x1 := le_antisymm h2 (not_lt.1 hb)
        subst e
        rw [if_neg hb, div_mul_cancel₀ _ (by linarith)]
        cases xs with
        | nil => cases fs <;> simp [interp]
        | cons x2 xs =>
          cases fs with
          | nil => simp at hl
          | cons f2 fs => simp [interp]
  | x0 :: x1 :: xs, f0 :: f1 :: fs, hp, hl, k + 1, hk, t, h1, h2 => by
    have hp' := List.pairwise_cons.1 hp
    have h01 : x0 < x1 := hp'.1 x1 (by simp)
    have hk' : k + 1 < (x1 :: xs).length := by simp at hk ⊢; omega
    have hge : x1 ≤ (x1 :: xs)[k]'(by omega) := by
      cases k with
      | zero => simp
      | succ k =>
        have := List.pairwise_iff_getElem.1 hp'.2 0 (k + 1) (by simp) (by omega) (by omega)
        simpa using this.le
    simp only [List.getElem_cons_succ] at h1 h2 ⊢
    rw [interp, if_neg (by linarith), if_neg (by linarith)]
    have := interp_between (x1 :: xs) (f1 :: fs) hp'.2 (by simpa using hl) k hk' t (by simpa using h1) (by simpa using h2)
    simpa using this

/-- C150.  To the left of the first pixel the value is that of the first pixel. -/
theorem interp_left {xs fs : List ℝ} (hl : fs.length = xs.length) (hx : 0 < xs.length) {t : ℝ} (h : t ≤ xs[0]) :
    interp xs fs t = fs[0] := by
  match xs, fs, hl, hx, h with
  | [x0], [f0], _, _, _ => rfl
  | x0 :: x1 :: xs, f0 :: f1 :: fs, _, _, h => rw [interp, if_pos (by simpa using h)]; rfl

/-- C150.  To the right of the last pixel the value is that of the last pixel. -/
theorem interp_right : ∀ {xs fs : List ℝ}, xs.Pairwise (· < ·) → (hl : fs.length = xs.length) → (hx : 0 < xs.length) → ∀ {t : ℝ},
    xs[xs.length - 1] ≤ t → interp xs fs t = fs[xs.length - 1]
  | [], _, _, _, hx, _, _ => by simp at hx
  | [_], [], _, hl, _, _, _ => by simp at hl
  | [_], _ :: _ :: _, _, hl, _, _, _ => by simp at hl
  | [x0], [f0], _, _, _, _, _ => rfl
  | x0 :: x1 :: xs, [], _, hl, _, _, _ => by simp at hl
  | x0 :: x1 :: xs, [f0], _, hl, _, _, _ => by simp at hl
  | x0 :: x1 :: xs, f0 :: f1 :: fs, hp, hl, _, t, h => by
    have hp' := List.pairwise_cons.1 hp
    have h01 : x0 < x1 := hp'.1 x1 (by simp)
    have hge : x1 ≤ (x1 :: xs)[(x1 :: xs).length - 1] := by
      cases xs with
      | nil => simp
      | cons x2 xs =>
        have := List.pairwise_iff_getElem.1 hp'.2 0 ((x1 :: x2 :: xs).length - 1) (by simp) (by simp) (by simp)
        simpa using this.le
    have h' : (x1 :: xs)[(x1 :: xs).length - 1] ≤ t := by simpa using h
    rw [interp, if_neg (by linarith), if_neg (by linarith)]
    have := interp_right (xs := x1 :: xs) (fs := f1 :: fs) hp'.2 (by simpa using hl) (by simp) h'
    simpa using this

/-- C150.  At a pixel the value is that of the pixel. -/
theorem interp_node {xs fs : List ℝ} (hp : xs.Pairwise (· < ·)) (hl : fs.length = xs.length) (k : Nat) (hk : k < xs.length) :
    interp xs fs xs[k] = fs[k] := by
  by_cases h : k + 1 < xs.length
  · rw [interp_between xs fs hp hl k h xs[k] le_rfl (List.pairwise_iff_getElem.1 hp k (k + 1) hk h (by omega)).le]
    simp
  · have e : k = xs.length - 1 := by omega
    subst e
    exact interp_right hp hl (by omega) le_rfl

theorem interp_own {xs fs : List ℝ} (hp : xs.Pairwise (· < ·)) (hl : fs.length = xs.length) : xs.map (interp xs fs) = fs := by
  apply List.ext_getElem (by simp [hl])
  intro k h1 h2
  simp only [List.getElem_map]
  exact interp_node hp hl k (by simpa using h1)

/-- C150.  Interpolation never leaves the range of the pixel values. -/
theorem interp_range : ∀ {xs fs : List ℝ}, xs.Pairwise (· < ·) → (hl : fs.length = xs.length) → (hx : 0 < xs.length) → ∀ {lo hi : ℝ},
    (∀ f ∈ fs, lo ≤ f ∧ f ≤ hi) → ∀ t, lo ≤ interp xs fs t ∧ interp xs fs t ≤ hi
  | [], _, _, _, hx, _, _, _, _ => by simp at hx
  | [_], [], _, hl, _, _, _, _, _ => by simp at hl
  | [_], _ :: _ :: _, _, hl, _, _, _, _, _ => by simp at hl
  | [x0], [f0], _, _, _, lo, hi, hb, t => by simpa [interp] using hb f0 (by simp)
  | x0 :: x1 :: xs, [], _, hl, _, _, _, _, _ => by simp at hl
  | x0 :: x1 :: xs, [f0], _, hl, _, _, _, _, _ => by simp at hl
  | x0 :: x1 :: xs, f0 :: f1 :: fs, hp, hl, _, lo, hi, hb, t => by
    have hp' := List.pairwise_cons.1 hp
    have h01 : x0 < x1 := hp'.1 x1 (by simp)
    have b0 := hb f0 (by simp)
    have b1 := hb f1 (by simp)
    rw [interp]
    by_cases ha : t ≤ x0
    · rw [if_pos ha]; exact b0
    · rw [if_neg ha]
      by_cases hc : t < x1
      · rw [if_pos hc]
        have hd : 0 < x1 - x0 := by linarith
        set w := (t - x0) / (x1 - x0) with hw
        have w0 : 0 ≤ w := div_nonneg (by linarith) hd.le
        have w1 : w ≤ 1 := by rw [hw, div_le_one hd]; linarith
        have e : f0 + (f1 - f0) / (x1 - x0) * (t - x0) = (1 - w) * f0 + w * f1 := by
          rw [hw]; field_simp; ring
        rw [e]
        constructor <;> nlinarith
      · rw [if_neg hc]
        exact interp_range (xs := x1 :: xs) (fs := f1 :: fs) hp'.2 (by simpa using hl) (by simp) (fun f hf => hb f (by simp at hf ⊢; tauto)) t

/-! ## Resampling -/

/-- A spectrum as it is made: increasing axis, arrays of the same length. -/
structure WF (s : Sp) : Prop where
  inc : s.x.Pairwise (· < ·)
  flux : s.flux.length = s.x.length
  err : s.err.length = s.x.length
  ne : s.x ≠ []

/-- C150.  Resampling to an axis of as many pixels puts the spectrum on that axis with the interpolated flux and error; any other
number of pixels is refused and changes nothing; without `replace` the arrays are returned and the spectrum is unchanged. -/
theorem resample_exact {s : Sp} (hs : WF s) (newx : List ℝ) :
    (newx.length = s.x.length → resample s newx true =
      ({ s with x := newx, flux := newx.map (interp s.x s.flux), err := newx.map (interp s.x s.err) },
        .ok (newx, newx.map (interp s.x s.flux), newx.map (interp s.x s.err)))) ∧
      (newx.length ≠ s.x.length → resample s newx true = (s, .error .value)) ∧
      resample s newx false = (s, .ok (newx, newx.map (interp s.x s.flux), newx.map (interp s.x s.err))) := by
  have h0 : s.x.isEmpty = false := by simpa using hs.ne
  refine ⟨fun h => ?_, fun h => ?_, ?_⟩ <;> simp [resample, h0, hs.ne, *]

/-- C150.  Resampling a spectrum to its own axis changes nothing. -/
theorem resample_own {s : Sp} (hs : WF s) : (resample s s.x true).1 = s := by
  rw [(resample_exact hs s.x).1 rfl, interp_own hs.inc hs.flux, interp_own hs.inc hs.err]

theorem linspace_length (l u : ℝ) (n : Nat) : (linspace l u n).length = n := by simp [linspace]

theorem linspace_get (l u : ℝ) (n k : Nat) (hk : k < (linspace l u n).length) :
    (linspace l u n)[k] = l + k * ((u - l) / ((n : ℝ) - 1)) := by
  simp only [linspace, List.getElem_map, List.getElem_range]

theorem linspace_even (l u : ℝ) (n : Nat) : Even (linspace l u n) ((u - l) / ((n : ℝ) - 1)) := by
  intro k hk
  rw [linspace_get, linspace_get]
  push_cast
  ring

theorem linspace_ends (l u : ℝ) {n : Nat} (hn : 2 ≤ n) : (linspace l u n).headD 0 = l ∧ (linspace l u n).getLastD 0 = u := by
  have hl := linspace_length l u n
  have hne : linspace l u n ≠ [] := by intro h; rw [h] at hl; simp at hl; omega
  constructor
  · rw [← getD_head, getD_get _ (by omega), linspace_get]; simp
  · rw [← getD_last _ hne, getD_get _ (by omega), linspace_get, hl]
    have : (n : ℝ) - 1 ≠ 0 := by
      have : (2 : ℝ) ≤ n := by exact_mod_cast hn
      linarith
    rw [Nat.cast_sub (by omega)]
    field_simp
    ring

theorem foldl_min_le : ∀ (l : List ℝ) (a : ℝ), (∀ b ∈ l, a ≤ b) → l.foldl min a = a
  | [], _, _ => rfl
  | b :: l, a, h => by
    rw [List.foldl_cons, min_eq_left (h b (by simp))]
    exact foldl_min_le l a (fun c hc => h c (by simp [hc]))

theorem npMin_sorted {x : List ℝ} (hp : x.Pairwise (· < ·)) : npMin x = x.headD 0 := by
  cases x with
  | nil => rfl
  | cons a l =>
    have := List.pairwise_cons.1 hp
    rw [npMin]
    apply foldl_min_le
    intro b hb
    rcases List.mem_cons.1 hb with rfl | hb
    · exact le_rfl
    · exact (this.1 b hb).le

theorem foldl_max_sorted : ∀ (l : List ℝ) (a : ℝ), (a :: l).Pairwise (· < ·) → l.foldl max a = (a :: l).getLastD 0
  | [], _, _ => rfl
  | b :: l, a, h => by
    have h' := List.pairwise_cons.1 h
    rw [List.foldl_cons, max_eq_right (h'.1 b (by simp)).le, foldl_max_sorted l b h'.2]
    simp [List.getLastD_cons]

theorem npMax_sorted {x : List ℝ} (hp : x.Pairwise (· < ·)) : npMax x = x.getLastD 0 := by
  cases x with
  | nil => rfl
  | cons a l =>
    rw [npMax, List.headD_cons, List.foldl_cons, max_self]
    exact foldl_max_sorted l a hp

theorem head_lt_last {x : List ℝ} (hp : x.Pairwise (· < ·)) (hn : 2 ≤ x.length) : x.headD 0 < x.getLastD 0 := by
  have hne : x ≠ [] := by rintro rfl; simp at hn
  rw [← getD_head, ← getD_last x hne, getD_get _ (by omega), getD_get _ (by omega)]
  exact List.pairwise_iff_getElem.1 hp _ _ _ _ (by omega)

/-- C150.  Linearizing gives as many pixels as before, evenly spaced between the old ends, with the interpolated values; the
first and the last pixel keep their values; and the result passes the test for being linear. -/
theorem linearize_exact {s : Sp} (hs : WF s) (hn : 2 ≤ s.x.length) : ∃ s' : Sp,
    linearize s none none true = (s', .ok (s'.x, s'.flux, s'.err)) ∧ s'.x.length = s.x.length ∧
      s'.x.headD 0 = s.x.headD 0 ∧ s'.x.getLastD 0 = s.x.getLastD 0 ∧ Even s'.x (meanStep s.x) ∧
      s'.flux = s'.x.map (interp s.x s.flux) ∧ s'.err = s'.x.map (interp s.x s.err) ∧
      s'.flux.headD 0 = s.flux.headD 0 ∧ s'.flux.getLastD 0 = s.flux.getLastD 0 ∧ (∀ eps : ℝ, 0 < eps → isLinear s'.x eps = .ok true) ∧ WF s' := by
  have hmin := npMin_sorted hs.inc
  have hmax := npMax_sorted hs.inc
  have hlen := linspace_length (npMin s.x) (npMax s.x) s.x.length
  have hends := linspace_ends (npMin s.x) (npMax s.x) hn
  have heven := linspace_even (npMin s.x) (npMax s.x) s.x.length
  have hstep : (npMax s.x - npMin s.x) / ((s.x.length : ℝ) - 1) = meanStep s.x := by rw [hmin, hmax, meanStep]
  have hpos : 0 < meanStep s.x := by
    rw [meanStep]
    have : (2 : ℝ) ≤ s.x.length := by exact_mod_cast hn
    exact div_pos (by linarith [head_lt_last hs.inc hn]) (by linarith)
  set nx := linspace (npMin s.x) (npMax s.x) s.x.length with hnx
  have hnne : nx ≠ [] := by intro h; rw [h] at hlen; simp at hlen; omega
  refine ⟨{ s with x := nx, flux := nx.map (interp s.x s.flux), err := nx.map (interp s.x s.err) }, ?_, hlen, ?_, ?_, ?_, rfl, rfl, ?_, ?_, ?_, ?_⟩
  · show resample s nx true = _
    rw [(resample_exact hs nx).1 hlen]
  · exact hends.1.trans hmin
  · exact hends.2.trans hmax
  · rw [← hstep]; exact heven
  · show (nx.map (interp s.x s.flux)).headD 0 = s.flux.headD 0
    have h1 : nx[0]'(by omega) = s.x[0]'(by omega) := by
      have := hends.1.trans hmin
      rwa [← getD_head, ← getD_head, getD_get _ (by omega), getD_get _ (by omega)] at this
    rw [← getD_head, ← getD_head, getD_get _ (by simp; omega), getD_get _ (by rw [hs.flux]; omega), List.getElem_map, h1]
    exact interp_left hs.flux (by omega) le_rfl
  · show (nx.map (interp s.x s.flux)).getLastD 0 = s.flux.getLastD 0
    have hfne : s.flux ≠ [] := by intro h; have := hs.flux; rw [h] at this; simp at this; omega
    have hmne : nx.map (interp s.x s.flux) ≠ [] := by simpa using hnne
    have h1 : nx[nx.length - 1]'(by omega) = s.x[s.x.length - 1]'(by omega) := by
      have := hends.2.trans hmax
      rwa [← getD_last _ hnne, ← getD_last _ hs.ne, getD_get _ (by omega), getD_get _ (by omega)] at this
    rw [← getD_last _ hmne, ← getD_last _ hfne, getD_get _ (by simp; omega), getD_get _ (by rw [hs.flux]; omega), List.getElem_map]
    simp only [List.length_map]
    rw [h1, interp_right hs.inc hs.flux (by omega) le_rfl]
    congr 1
    rw [hs.flux]
  · intro eps he
    exact even_linear (by rw [hlen]; exact hn) heven he
  · refine ⟨?_, by simp, by simp, hnne⟩
    show nx.Pairwise (· < ·)
    rw [List.pairwise_iff_getElem]
    intro i j hi hj hij
    simp only [hnx, linspace_get]
    rw [hstep]
    have : (i : ℝ) < j := by exact_mod_cast hij
    nlinarith

theorem even_get {x : List ℝ} {h : ℝ} (hx : Even x h) : ∀ k, (hk : k < x.length) → x[k] = x[0] + k * h
  | 0, _ => by simp
  | k + 1, hk => by
    have := hx k hk
    rw [even_get hx k (by omega)] at this
    push_cast
    linarith

/-- C150.  An evenly spaced spectrum is not changed by linearizing; in particular linearizing twice is linearizing once. -/
theorem linearize_even {s : Sp} (hs : WF s) (hn : 2 ≤ s.x.length) {h : ℝ} (he : Even s.x h) : (linearize s none none true).1 = s := by
  have e : linspace (npMin s.x) (npMax s.x) s.x.length = s.x := by
    have hmin := npMin_sorted hs.inc
    have hmax := npMax_sorted hs.inc
    apply List.ext_getElem (linspace_length _ _ _)
    intro k h1 h2
    rw [linspace_get, hmin, hmax, even_get he k h2, ← getD_last _ hs.ne, ← getD_head, getD_get _ (by omega),
      getD_get _ (by omega), even_get he (s.x.length - 1) (by omega)]
    have : (s.x.length : ℝ) - 1 ≠ 0 := by
      have : (2 : ℝ) ≤ s.x.length := by exact_mod_cast hn
      linarith
    rw [Nat.cast_sub (by omega)]
    field_simp
    ring
  show (resample s (linspace (npMin s.x) (npMax s.x) s.x.length) true).1 = s
  rw [e]
  exact resample_own hs

theorem ten_pow_log10 {t : ℝ} (ht : 0 < t) : (10 : ℝ) ^ log10 t = t := by
  have h10 : Real.log 10 ≠ 0 := Real.log_ne_zero_of_pos_of_ne_one (by norm_num) (by norm_num)
  rw [Real.rpow_def_of_pos (by norm_num), log10, mul_div_cancel₀ _ h10, Real.exp_log ht]

/-- C150.  For a positive axis `logify` gives as many pixels as before, each a fixed multiple of the one before, from the old
first to the old last value, with the interpolated values; and the result passes the logarithmic test. -/
theorem logify_exact {s : Sp} (hs : WF s) (hn : 2 ≤ s.x.length) (hp : ∀ t ∈ s.x, 0 < t) : ∃ s' : Sp, ∃ r : ℝ, 1 < r ∧
    logify s none none true = (s', .ok (s'.x, s'.flux, s'.err)) ∧ s'.x.length = s.x.length ∧
      s'.x.headD 0 = s.x.headD 0 ∧ s'.x.getLastD 0 = s.x.getLastD 0 ∧ Geometric s'.x r ∧
      s'.flux = s'.x.map (interp s.x s.flux) ∧ s'.err = s'.x.map (interp s.x s.err) ∧
      (∀ eps : ℝ, 0 < eps → isLogarithmic s'.x eps = .ok true) := by
  have hmin := npMin_sorted hs.inc
  have hmax := npMax_sorted hs.inc
  have hhead : 0 < s.x.headD 0 := by
    rw [← getD_head, getD_get _ (by omega)]; exact hp _ (List.getElem_mem _)
  have hlast : 0 < s.x.getLastD 0 := by
    rw [← getD_last _ hs.ne, getD_get _ (by omega)]; exact hp _ (List.getElem_mem _)
  set a := log10 (npMin s.x) with ha
  set b := log10 (npMax s.x) with hb
  have hab : a < b := by
    rw [ha, hb, hmin, hmax, log10, log10]
    exact div_lt_div_of_pos_right (Real.log_lt_log hhead (head_lt_last hs.inc hn)) (Real.log_pos (by norm_num))
  have hn2 : (2 : ℝ) ≤ s.x.length := by exact_mod_cast hn
  have hlen : (logspace a b s.x.length).length = s.x.length := by simp [logspace, linspace]
  have hends := linspace_ends a b hn
  have hlne : linspace a b s.x.length ≠ [] := by
    intro h; have := linspace_length a b s.x.length; rw [h] at this; simp at this; omega
  have hne : logspace a b s.x.length ≠ [] := by simpa [logspace] using hlne
  have hget : ∀ k, (hk : k < (logspace a b s.x.length).length) →
      (logspace a b s.x.length)[k] = (10 : ℝ) ^ (a + k * ((b - a) / ((s.x.length : ℝ) - 1))) := by
    intro k hk
    simp only [logspace, linspace, List.getElem_map, List.getElem_range]
  have hgeo : Geometric (logspace a b s.x.length) ((10 : ℝ) ^ ((b - a) / ((s.x.length : ℝ) - 1))) := by
    intro k hk
    rw [hget, hget, ← Real.rpow_add (by norm_num)]
    congr 1
    push_cast
    ring
  refine ⟨{ s with x := logspace a b s.x.length, flux := (logspace a b s.x.length).map (interp s.x s.flux), err := (logspace a b s.x.length).map (interp s.x s.err) },
    (10 : ℝ) ^ ((b - a) / ((s.x.length : ℝ) - 1)), ?_, ?_, hlen, ?_, ?_, hgeo, rfl, rfl, ?_⟩
  · exact Real.one_lt_rpow (by norm_num) (div_pos (by linarith) (by linarith))
  · show resample s (logspace a b s.x.length) true = _
    rw [(resample_exact hs _).1 hlen]
  · show (logspace a b s.x.length).headD 0 = _
    rw [← getD_head, getD_get _ (by omega), hget, ← hmin]
    simp only [Nat.cast_zero, zero_mul, add_zero]
    rw [ha, ten_pow_log10 (by rw [hmin]; exact hhead)]
  · show (logspace a b s.x.length).getLastD 0 = _
    rw [← getD_last _ hne, getD_get _ (by omega), hget, ← hmax, hlen]
    have e : a + ((s.x.length - 1 : ℕ) : ℝ) * ((b - a) / ((s.x.length : ℝ) - 1)) = b := by
      have : (s.x.length : ℝ) - 1 ≠ 0 := by linarith
      rw [Nat.cast_sub (by omega)]
      field_simp
      ring
    rw [e, hb, ten_pow_log10 (by rw [hmax]; exact hlast)]
  · refine (logarithmic_iff (by rw [hlen]; exact hn) ?_).2 ⟨_, hgeo⟩
    intro t ht
    obtain ⟨e, _, rfl⟩ := List.mem_map.1 ht
    positivity

/-- C150.  With limits given, the new axis runs evenly from the one to the other. -/
theorem linearize_range {s : Sp} (hs : WF s) (hn : 2 ≤ s.x.length) (lo hi : Option ℝ) : ∃ s' : Sp,
    linearize s lo hi true = (s', .ok (s'.x, s'.flux, s'.err)) ∧ s'.x.length = s.x.length ∧
      s'.x.headD 0 = lo.getD (s.x.headD 0) ∧ s'.x.getLastD 0 = hi.getD (s.x.getLastD 0) ∧ (∃ h, Even s'.x h) ∧
      s'.flux = s'.x.map (interp s.x s.flux) ∧ s'.err = s'.x.map (interp s.x s.err) := by
  have hmin := npMin_sorted hs.inc
  have hmax := npMax_sorted hs.inc
  refine ⟨{ s with x := linspace (lo.getD (npMin s.x)) (hi.getD (npMax s.x)) s.x.length,
                   flux := (linspace (lo.getD (npMin s.x)) (hi.getD (npMax s.x)) s.x.length).map (interp s.x s.flux),
                   err := (linspace (lo.getD (npMin s.x)) (hi.getD (npMax s.x)) s.x.length).map (interp s.x s.err) },
    ?_, linspace_length (lo.getD (npMin s.x)) (hi.getD (npMax s.x)) s.x.length, ?_, ?_,
    ⟨_, linspace_even (lo.getD (npMin s.x)) (hi.getD (npMax s.x)) s.x.length⟩, ?_, ?_⟩
  · show resample s _ true = _
    rw [(resample_exact hs _).1 (linspace_length _ _ _)]
  · rw [← hmin]; exact (linspace_ends _ _ hn).1
  · rw [← hmax]; exact (linspace_ends _ _ hn).2
  · rfl
  · rfl

/-- C150.  Likewise in equal ratios. -/
theorem logify_range {s : Sp} (hs : WF s) (hn : 2 ≤ s.x.length) (hp : ∀ t ∈ s.x, 0 < t) (lo hi : Option ℝ)
    (hl : ∀ t, lo = some t → 0 < t) (hu : ∀ t, hi = some t → 0 < t) : ∃ s' : Sp,
    logify s lo hi true = (s', .ok (s'.x, s'.flux, s'.err)) ∧ s'.x.length = s.x.length ∧
      s'.x.headD 0 = lo.getD (s.x.headD 0) ∧ s'.x.getLastD 0 = hi.getD (s.x.getLastD 0) ∧ (∃ r, Geometric s'.x r) ∧
      s'.flux = s'.x.map (interp s.x s.flux) ∧ s'.err = s'.x.map (interp s.x s.err) := by
  have hmin := npMin_sorted hs.inc
  have hmax := npMax_sorted hs.inc
  have hhead : 0 < s.x.headD 0 := by
    rw [← getD_head, getD_get _ (by omega)]; exact hp _ (List.getElem_mem _)
  have hlast : 0 < s.x.getLastD 0 := by
    rw [← getD_last _ hs.ne, getD_get _ (by omega)]; exact hp _ (List.getElem_mem _)
  have hlo : 0 < lo.getD (npMin s.x) := by
    cases lo with
    | none => rw [hmin.symm] at hhead; exact hhead
    | some t => exact hl t rfl
  have hup : 0 < hi.getD (npMax s.x) := by
    cases hi with
    | none => rw [hmax.symm] at hlast; exact hlast
    | some t => exact hu t rfl
  set a := log10 (lo.getD (npMin s.x)) with ha
  set b := log10 (hi.getD (npMax s.x)) with hb
  have hn2 : (2 : ℝ) ≤ s.x.length := by exact_mod_cast hn
  have hlen : (logspace a b s.x.length).length = s.x.length := by simp [logspace, linspace]
  have hlne : linspace a b s.x.length ≠ [] := by
    intro h; have := linspace_length a b s.x.length; rw [h] at this; simp at this; omega
  have hne : logspace a b s.x.length ≠ [] := by simpa [logspace] using hlne
  have hget : ∀ k, (hk : k < (logspace a b s.x.length).length) →
      (logspace a b s.x.length)[k] = (10 : ℝ) ^ (a + k * ((b - a) / ((s.x.length : ℝ) - 1))) := by
    intro k hk
    simp only [logspace, linspace, List.getElem_map, List.getElem_range]
  have hgeo : Geometric (logspace a b s.x.length) ((10 : ℝ) ^ ((b - a) / ((s.x.length : ℝ) - 1))) := by
    intro k hk
    rw [hget, hget, ← Real.rpow_add (by norm_num)]
    congr 1
    push_cast
    ring
  refine ⟨{ s with x := logspace a b s.x.length, flux := (logspace a b s.x.length).map (interp s.x s.flux), err := (logspace a b s.x.length).map (interp s.x s.err) },
    ?_, hlen, ?_, ?_, ⟨_, hgeo⟩, rfl, rfl⟩
  · show resample s (logspace a b s.x.length) true = _
    rw [(resample_exact hs _).1 hlen]
  · show (logspace a b s.x.length).headD 0 = _
    rw [← getD_head, getD_get _ (by omega), hget, ← hmin]
    simp only [Nat.cast_zero, zero_mul, add_zero]
    rw [ha, ten_pow_log10 hlo]
  · show (logspace a b s.x.length).getLastD 0 = _
    rw [← getD_last _ hne, getD_get _ (by omega), hget, ← hmax, hlen]
    have e : a + ((s.x.length - 1 : ℕ) : ℝ) * ((b - a) / ((s.x.length : ℝ) - 1)) = b := by
      have : (s.x.length : ℝ) - 1 ≠ 0 := by linarith
      rw [Nat.cast_sub (by omega)]
      field_simp
      ring
    rw [e, hb, ten_pow_log10 hup]

theorem std_shift {x : List ℝ} (hx : x ≠ []) (c : ℝ) : std (x.map fun a => a - c) = std x := by
  have hm : mean (x.map fun a => a - c) = mean x - c := by
    have hn : (x.length : ℝ) ≠ 0 := by
      have : 0 < x.length := List.length_pos_iff.2 hx
      exact_mod_cast this.ne'
    have hs : ∀ l : List ℝ, (l.map fun a => a - c).sum = l.sum - l.length * c := by
      intro l
      induction l with
      | nil => simp
      | cons a l ih => simp [ih]; ring
    rw [mean, hs, List.length_map, mean]
    field_simp
  unfold std
  rw [hm, List.map_map]
  congr 3
  funext d
  simp only [Function.comp]
  ring

/-- C149.  Against an axis of a single pixel only the spread of the other axis is looked at, in whichever order they are given. -/
theorem single_pixel {x : List ℝ} (hx : x ≠ []) (c tol : ℝ) : isXMatched x [c] tol = decide (std x < tol) ∧ isXMatched [c] x tol = decide (std x < tol) := by
  have hneg : std (x.map fun b => c - b) = std x := by
    have e : ∀ l : List ℝ, std (l.map fun b => -b) = std l := by
      intro l
      have hm : mean (l.map fun b => -b) = -mean l := by
        have hs : (l.map fun b => -b).sum = -l.sum := by
          induction l with
          | nil => simp
          | cons a l ih => simp [ih]; ring
        rw [mean, hs, List.length_map, mean]
        ring
      unfold std
      rw [hm, List.map_map]
      congr 3
      funext d
      simp only [Function.comp]
      ring
    rw [← std_shift hx c, ← e (x.map fun a => a - c), List.map_map]
    congr 2
    funext b
    simp
  have b1 : bsub x [c] = some (x.map fun a => a - c) := by
    unfold bsub
    split_ifs with h
    · match x, h with
      | [a], _ => rfl
    · rfl
    · simp at *
    · simp at *
  have b2 : bsub [c] x = some (x.map fun b => c - b) := by
    unfold bsub
    split_ifs with h h2
    · match x, h with
      | [a], _ => rfl
    · exact absurd h2.symm h
    · rfl
    · simp at *
  have m1 : ¬ (x.map fun a => a - c).isEmpty := by simpa using hx
  have m2 : ¬ (x.map fun a => c - a).isEmpty := by simpa using hx
  unfold isXMatched
  rw [b1, b2]
  simp only [if_neg m1, if_neg m2, std_shift hx, hneg, and_self]

/-- The hypotheses can be met: three pixels, unevenly spaced. -/
example : WF ⟨[1, 2, 4], [5, 7, 6], [1, 1, 1], true⟩ ∧ isLinear [1, 2, 3] 1 = .ok true ∧ interp [1, 2, 4] [5, 7, 6] 3 = 6.5 := by
  refine ⟨⟨by simp; norm_num, rfl, rfl, by simp⟩, ?_, ?_⟩
  · apply even_linear (h := 1) (by simp) _ (by norm_num)
    intro k hk
    match k, hk with
    | 0, _ => norm_num
    | 1, _ => norm_num
    | k + 2, hk => simp at hk; omega
  · norm_num [interp]

end Verif.SpecAxis
