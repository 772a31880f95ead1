import Verif.StatsProps

/-!
# Biweight midvariance and interquartile range: properties (C91)
-/

namespace Verif.Stats

open Verif.Alg (median IsMedian)

variable {α : Type} [Field α] [LinearOrder α] [IsStrictOrderedRing α]

/-- Inversion of a successful call. -/
theorem biweight_some {l : List α} {scale : α} {cen : List α → Option α} {B Q : α} (h : biweight l scale cen = some (B, Q)) :
    ∃ d, cen l = some Q ∧ mad 1 l false cen = some d ∧ scale * d ≠ 0 ∧ (l.map (denomTerm Q (scale * d))).sum ^ 2 ≠ 0 ∧
      B = l.length * (l.map (numerTerm Q (scale * d))).sum / (l.map (denomTerm Q (scale * d))).sum ^ 2 := by
  unfold biweight at h
  cases hc : cen l with
  | none => rw [hc] at h; simp at h
  | some q =>
    rw [hc] at h
    simp only at h
    cases hd : mad 1 l false cen with
    | none => rw [hd] at h; simp at h
    | some d =>
      rw [hd] at h
      simp only at h
      split at h
      · simp at h
      · split at h
        · simp at h
        · rename_i h1 h2
          simp only [Option.some.injEq, Prod.mk.injEq] at h
          obtain ⟨rfl, rfl⟩ := h
          exact ⟨d, rfl, rfl, h1, h2, rfl⟩

theorem biweight_intro {l : List α} {scale : α} {cen : List α → Option α} {Q d : α} (hc : cen l = some Q)
    (hd : mad 1 l false cen = some d) (h1 : scale * d ≠ 0) (h2 : (l.map (denomTerm Q (scale * d))).sum ^ 2 ≠ 0) :
    biweight l scale cen = some (l.length * (l.map (numerTerm Q (scale * d))).sum / (l.map (denomTerm Q (scale * d))).sum ^ 2, Q) := by
  unfold biweight
  rw [hc]
  simp only
  rw [hd]
  simp only [h1, h2, if_false]

/-- C91: the biweight midvariance is computed with the weights of its definition: `n Σ (x-Q)²(1-u²)⁴ / (Σ (1-u²)(1-5u²))²`, both sums over
the data with `|u| ≤ 1`, where `u = (x-Q)/(scale*MAD)`. -/
theorem biweight_spec {l : List α} {scale : α} {cen : List α → Option α} {B Q : α} (h : biweight l scale cen = some (B, Q)) :
    ∃ (d : α) (u : α → α), cen l = some Q ∧ mad 1 l false cen = some d ∧ (∀ x, u x * (scale * d) = x - Q) ∧
      B * (((l.filter (fun x => decide (|u x| ≤ 1))).map (fun x => (1 - u x ^ 2) * (1 - 5 * u x ^ 2))).sum) ^ 2 =
        l.length * ((l.filter (fun x => decide (|u x| ≤ 1))).map (fun x => (x - Q) ^ 2 * (1 - u x ^ 2) ^ 4)).sum := by
  obtain ⟨d, hc, hd, h1, h2, rfl⟩ := biweight_some h
  refine ⟨d, fun x => (x - Q) / (scale * d), hc, hd, fun x => by simp only [div_mul_cancel₀ _ h1], ?_⟩
  have e1 : ∀ l : List α, ((l.filter (fun x => decide (|(x - Q) / (scale * d)| ≤ 1))).map
      (fun x => (1 - ((x - Q) / (scale * d)) ^ 2) * (1 - 5 * ((x - Q) / (scale * d)) ^ 2))).sum = (l.map (denomTerm Q (scale * d))).sum := by
    intro l
    induction l with
    | nil => rfl
    | cons x l ih =>
      simp only [List.filter_cons, List.map_cons, List.sum_cons, ← ih, denomTerm, decide_eq_true_eq]
      by_cases hx : |(x - Q) / (scale * d)| ≤ 1
      · simp [hx, (sq_le_one_iff_abs_le_one _).2 hx]
      · simp [hx, mt (sq_le_one_iff_abs_le_one _).1 hx]
  have e2 : ∀ l : List α, ((l.filter (fun x => decide (|(x - Q) / (scale * d)| ≤ 1))).map
      (fun x => (x - Q) ^ 2 * (1 - ((x - Q) / (scale * d)) ^ 2) ^ 4)).sum = (l.map (numerTerm Q (scale * d))).sum := by
    intro l
    induction l with
    | nil => rfl
    | cons x l ih =>
      simp only [List.filter_cons, List.map_cons, List.sum_cons, ← ih, numerTerm, decide_eq_true_eq]
      by_cases hx : |(x - Q) / (scale * d)| ≤ 1
      · simp [hx, (sq_le_one_iff_abs_le_one _).2 hx]
      · simp [hx, mt (sq_le_one_iff_abs_le_one _).1 hx]
  rw [e1, e2]
  exact div_mul_cancel₀ _ h2

/-- C91: it is never negative. -/
theorem biweight_nonneg {l : List α} {scale : α} {cen : List α → Option α} {B Q : α} (h : biweight l scale cen = some (B, Q)) : 0 ≤ B := by
  obtain ⟨d, hc, hd, h1, h2, rfl⟩ := biweight_some h
  apply div_nonneg _ (sq_nonneg _)
  apply mul_nonneg (Nat.cast_nonneg _)
  apply List.sum_nonneg
  intro y hy
  obtain ⟨x, _, rfl⟩ := List.mem_map.1 hy
  unfold numerTerm
  have : 0 ≤ (1 - ((x - Q) / (scale * d)) ^ 2) ^ 4 := by positivity
  dsimp only
  split
  · have := sq_nonneg (x - Q); positivity
  · simp

/-- C91: the order of the data does not matter. -/
theorem biweight_perm {l l' : List α} (h : l.Perm l') (scale : α) (cen : List α → Option α) (hcen : cen l = cen l') :
    biweight l scale cen = biweight l' scale cen := by
  unfold biweight
  rw [hcen, mad_perm 1 h false cen, h.length_eq]
  cases cen l' with
  | none => rfl
  | some Q =>
    cases mad 1 l' false cen with
    | none => rfl
    | some d =>
      simp only [(h.map (numerTerm Q (scale * d))).sum_eq, (h.map (denomTerm Q (scale * d))).sum_eq]

theorem terms_affine (Q w s c x : α) (hs : s ≠ 0) :
    numerTerm (s * Q + c) (|s| * w) (s * x + c) = s ^ 2 * numerTerm Q w x ∧ denomTerm (s * Q + c) (|s| * w) (s * x + c) = denomTerm Q w x := by
  have hsq : ((s * x + c - (s * Q + c)) / (|s| * w)) ^ 2 = ((x - Q) / w) ^ 2 := by
    have : s * x + c - (s * Q + c) = s * (x - Q) := by ring
    rw [this, mul_div_mul_comm, mul_pow, div_pow, sq_abs, div_self (pow_ne_zero 2 hs), one_mul]
  unfold numerTerm denomTerm
  simp only [hsq]
  refine ⟨?_, trivial⟩
  ring

/-- C91: scaling and shifting the data by `s` and `c` scales the midvariance by `s²` and maps the centre along. -/
theorem biweight_affine {l : List α} {scale : α} {cen : List α → Option α} {B Q : α} (s c : α) (hs : s ≠ 0)
    (hcen : cen (l.map (fun x => s * x + c)) = (cen l).map (fun x => s * x + c)) (h : biweight l scale cen = some (B, Q)) :
    biweight (l.map (fun x => s * x + c)) scale cen = some (s ^ 2 * B, s * Q + c) := by
  obtain ⟨d, hc, hd, h1, h2, rfl⟩ := biweight_some h
  have hd' := mad_affine 1 l false cen s c
  rw [hd, Option.map_some] at hd'
  rw [hc, Option.map_some] at hcen
  have hw : scale * (|s| * d) = |s| * (scale * d) := by ring
  have en : ((l.map (fun x => s * x + c)).map (numerTerm (s * Q + c) (scale * (|s| * d)))).sum = s ^ 2 * (l.map (numerTerm Q (scale * d))).sum := by
    rw [hw]
    have := fun x => (terms_affine Q (scale * d) s c x hs).1
    clear h hd hd' hc hcen h1 h2 hw
    induction l with
    | nil => simp
    | cons x l ih => simp only [List.map_cons, List.sum_cons, ih, this, mul_add]
  have ed : ((l.map (fun x => s * x + c)).map (denomTerm (s * Q + c) (scale * (|s| * d)))).sum = (l.map (denomTerm Q (scale * d))).sum := by
    rw [List.map_map, hw]
    congr 1
    apply List.map_congr_left
    intro x _
    exact (terms_affine Q (scale * d) s c x hs).2
  rw [biweight_intro hcen hd' (by rw [hw]; exact mul_ne_zero (abs_ne_zero.2 hs) h1) (by rw [ed]; exact h2), en, ed, List.length_map]
  congr 2
  ring

/-- Every value is at least as far from the median as the two middle values. -/
theorem middle_gap (l : List α) (m : α) (hm : median l = some m) :
    ∃ (h1 : l.length / 2 < (srt l).length), ∀ x ∈ l, (srt l)[l.length / 2] - m ≤ |x - m| := by
  obtain ⟨h0, h1, e, h3, h4⟩ := median_mid l m hm
  refine ⟨h1, fun x hx => ?_⟩
  obtain ⟨i, hi, rfl⟩ := List.mem_iff_getElem.1 ((srt_perm l).mem_iff.2 hx)
  by_cases hlt : i ≤ (l.length - 1) / 2
  · have := le_getElem (srt_sorted l) hlt h0
    rw [abs_sub_comm]
    refine le_trans ?_ (le_abs_self _)
    linarith
  · have := le_getElem (srt_sorted l) (show l.length / 2 ≤ i by omega) hi
    refine le_trans ?_ (le_abs_self _)
    linarith

/-- Counting at most `t` is the same if one value above `t` is replaced by another value above `t`. -/
theorem count_replace (f : α → α) (l1 l2 : List α) (o o' t : α) (h : t < f o) (h' : t < f o') :
    ((l1 ++ o :: l2).map f).countP (fun x => decide (x ≤ t)) = ((l1 ++ o' :: l2).map f).countP (fun x => decide (x ≤ t)) := by
  simp [List.countP_append, not_le.2 h, not_le.2 h']

theorem outlier_high (l1 l2 : List α) (o o' scale B Q d : α) (hsc : 2 ≤ scale)
    (h : biweight (l1 ++ o :: l2) scale median = some (B, Q)) (hd : mad 1 (l1 ++ o :: l2) false median = some d)
    (ho : Q + scale * d < o) (ho' : Q + scale * d < o') :
    biweight (l1 ++ o' :: l2) scale median = some (B, Q) := by
  obtain ⟨d0, hc, hd0, hne, h2, rfl⟩ := biweight_some h
  rw [hd] at hd0
  simp only [Option.some.injEq] at hd0
  subst hd0
  set l := l1 ++ o :: l2 with hl
  set l' := l1 ++ o' :: l2 with hl'
  have hlen : l'.length = l.length := by simp [hl, hl']
  have hlne : l ≠ [] := by simp [hl]
  have hdm := hd
  rw [mad_eq _ _ _ _ _ hc] at hdm
  obtain ⟨d', hd'⟩ := median_exists (l.map (fun x => |x - Q|)) (by simpa using hlne)
  rw [hd'] at hdm
  simp only [Option.map_some, Bool.false_eq_true, if_false, Option.some.injEq] at hdm
  subst hdm
  -- the deviation is positive
  have hdnn : 0 ≤ d' := by
    obtain ⟨g0, g1, e, g3, _⟩ := median_mid _ _ hd'
    refine le_trans ?_ g3
    have := (srt_perm (l.map (fun x => |x - Q|))).mem_iff.1 (List.getElem_mem g0)
    obtain ⟨y, _, hy⟩ := List.mem_map.1 this
    rw [← hy]; exact abs_nonneg _
  have hdpos : 0 < d' := lt_of_le_of_ne hdnn (by rintro rfl; simp at hne)
  have h2d : 2 * d' ≤ scale * d' := mul_le_mul_of_nonneg_right hsc hdnn
  -- the median
  have hgap : ∃ (h1 : l.length / 2 < (srt l).length), (srt l)[l.length / 2] ≤ Q + d' := by
    obtain ⟨g1, hg⟩ := middle_gap l Q hc
    refine ⟨g1, ?_⟩
    have : (srt l)[l.length / 2] - Q ≤ d' := by
      apply le_median_of_count _ _ _ hd'
      rw [List.countP_eq_length.2]
      · have := List.length_pos_of_ne_nil hlne
        simp only [List.length_map]; omega
      · intro x hx
        obtain ⟨y, hy, rfl⟩ := List.mem_map.1 hx
        simpa using hg y hy
    linarith
  have hT : ∀ t, t < min o o' → l.countP (fun x => decide (x ≤ t)) = l'.countP (fun x => decide (x ≤ t)) := by
    intro t ht
    have := count_replace id l1 l2 o o' t (lt_of_lt_of_le ht (min_le_left _ _)) (lt_of_lt_of_le ht (min_le_right _ _))
    simpa [hl, hl'] using this
  have hmed : median l' = some Q := by
    obtain ⟨g1, hg⟩ := hgap
    obtain ⟨k0, k1, e, k3, k4⟩ := median_mid l Q hc
    obtain ⟨m', hm'⟩ := median_exists l' (by simp [hl'])
    obtain ⟨k0', k1', e', _⟩ := median_mid l' m' hm'
    have hs1 : (srt l)[l.length / 2] < min o o' := by
      rw [lt_min_iff]; constructor <;> linarith
    have hs0 : (srt l)[(l.length - 1) / 2] < min o o' := lt_of_le_of_lt (le_trans k3 k4) hs1
    simp only [hlen] at e' k0' k1'
    have q1 := kth_congr l l' _ hT k1 k1' hs1
    have q0 := kth_congr l l' _ hT k0 k0' hs0
    rw [hm', e', q0, q1, ← e]
  -- the deviations
  have hTd : ∀ t, t < min |o - Q| |o' - Q| →
      (l.map (fun x => |x - Q|)).countP (fun x => decide (x ≤ t)) = (l'.map (fun x => |x - Q|)).countP (fun x => decide (x ≤ t)) := by
    intro t ht
    exact count_replace (fun x => |x - Q|) l1 l2 o o' t (lt_of_lt_of_le ht (min_le_left _ _)) (lt_of_lt_of_le ht (min_le_right _ _))
  have ho1 : scale * d' < |o - Q| := lt_of_lt_of_le (by linarith) (le_abs_self _)
  have ho1' : scale * d' < |o' - Q| := lt_of_lt_of_le (by linarith) (le_abs_self _)
  have hmad : median (l'.map (fun x => |x - Q|)) = some d' := by
    obtain ⟨k0, k1, e, k3, k4⟩ := median_mid _ _ hd'
    obtain ⟨m', hm'⟩ := median_exists (l'.map (fun x => |x - Q|)) (by simp [hl'])
    obtain ⟨k0', k1', e', _⟩ := median_mid _ m' hm'
    have hnn0 : 0 ≤ (srt (l.map (fun x => |x - Q|)))[((l.map (fun x => |x - Q|)).length - 1) / 2] := by
      have := (srt_perm (l.map (fun x => |x - Q|))).mem_iff.1 (List.getElem_mem k0)
      obtain ⟨y, _, hy⟩ := List.mem_map.1 this
      rw [← hy]; exact abs_nonneg _
    have hs1 : (srt (l.map (fun x => |x - Q|)))[(l.map (fun x => |x - Q|)).length / 2] < min |o - Q| |o' - Q| := by
      rw [lt_min_iff]; constructor <;> linarith
    have hs0 := lt_of_le_of_lt (le_trans k3 k4) hs1
    simp only [List.length_map, hlen] at e' k0' k1' k0 k1 hs0 hs1 e
    have q1 := kth_congr _ _ _ hTd k1 k1' hs1
    have q0 := kth_congr _ _ _ hTd k0 k0' hs0
    rw [hm', e', q0, q1, ← e]
  have hd2 : mad 1 l' false median = some d' := by
    rw [mad_eq _ _ _ _ _ hmed, hmad]; rfl
  -- the sums
  have hz : ∀ y, scale * d' < |y - Q| → numerTerm Q (scale * d') y = 0 ∧ denomTerm Q (scale * d') y = 0 := by
    intro y hy
    have hpos : 0 < scale * d' := by linarith
    have : ¬ ((y - Q) / (scale * d')) ^ 2 ≤ 1 := by
      rw [sq_le_one_iff_abs_le_one, abs_div, abs_of_pos hpos, div_le_one hpos]
      exact not_le.2 hy
    simp [numerTerm, denomTerm, this]
  have en : (l'.map (numerTerm Q (scale * d'))).sum = (l.map (numerTerm Q (scale * d'))).sum := by
    simp [hl, hl', (hz o ho1).1, (hz o' ho1').1]
  have ed : (l'.map (denomTerm Q (scale * d'))).sum = (l.map (denomTerm Q (scale * d'))).sum := by
    simp [hl, hl', (hz o ho1).2, (hz o' ho1').2]
  rw [biweight_intro hmed hd2 hne (by rw [ed]; exact h2), en, ed, hlen]

/-- C91: a value farther from the median than `influencescale` times the MAD has no weight: it can be replaced by any other value that
far on the same side without changing the result (`influencescale` at least 2, the default is 9). -/
theorem biweight_outlier (l1 l2 : List α) (o o' scale B Q d : α) (hsc : 2 ≤ scale)
    (h : biweight (l1 ++ o :: l2) scale median = some (B, Q)) (hd : mad 1 (l1 ++ o :: l2) false median = some d)
    (ho : (Q + scale * d < o ∧ Q + scale * d < o') ∨ (o < Q - scale * d ∧ o' < Q - scale * d)) :
    biweight (l1 ++ o' :: l2) scale median = some (B, Q) := by
  rcases ho with ⟨a, b⟩ | ⟨a, b⟩
  · exact outlier_high l1 l2 o o' scale B Q d hsc h hd a b
  · have h' := biweight_affine (-1) 0 (by norm_num) (median_affine' _ _ _) h
    have hd' := mad_affine 1 (l1 ++ o :: l2) false median (-1) 0
    rw [hd, Option.map_some] at hd'
    simp only [List.map_append, List.map_cons] at h' hd'
    have := outlier_high _ _ _ (-1 * o' + 0) scale _ _ _ hsc h' hd' (by simp; linarith) (by simp; linarith)
    have h3 := biweight_affine (-1) 0 (by norm_num) (median_affine' _ _ _) this
    simpa using h3

example : biweight ([1, 2, 4, 7, 1000] : List ℚ) 9 median = biweight ([1, 2, 4, 7, 777] : List ℚ) 9 median ∧
    (biweight ([1, 2, 4, 7, 1000] : List ℚ) 9 median).isSome := by decide +kernel

/-- C91: if more than half of the data are equal, the MAD is zero and the midvariance is not a number. -/
theorem biweight_degenerate (l : List α) (scale m : α) (hm : median l = some m) (h : l.length < 2 * l.count m) :
    biweight l scale median = none := by
  unfold biweight
  rw [hm]
  simp only
  rw [(mad_zero_iff l median m hm).2 h]
  simp

end Verif.Stats
