import Mathlib.Algebra.Order.Field.Basic
import Mathlib.Algebra.BigOperators.Group.List.Basic
import Mathlib.Algebra.BigOperators.Group.Finset.Basic
import Mathlib.Algebra.Order.BigOperators.Group.List
import Mathlib.Data.List.Count
import Mathlib.Tactic.Linarith
import Mathlib.Tactic.Ring
import Mathlib.Tactic.FieldSimp
import Mathlib.Tactic.Positivity
import Mathlib.Tactic.NormNum
import Mathlib.Data.Rat.Cast.Order

/-!
# Weights of binned values (astropysics/utils/stats.py 146-182) (C95)

Exact arithmetic in a linearly ordered field; `log=True` only applies `np.log` to the values first.  `np.histogram(values)` is called without
the number of bins, so it makes ten.
-/

namespace Verif.StatsBins

variable {α : Type} [Field α] [LinearOrder α]

/-- `np.min`, `np.max` (of data that are not empty). -/
def minOf : List α → α
  | [] => 0
  | [x] => x
  | x :: y :: l => min x (minOf (y :: l))
def maxOf : List α → α
  | [] => 0
  | [x] => x
  | x :: y :: l => max x (maxOf (y :: l))

/-- The limits of `np.histogram`: the range of the data, widened if they are all equal. -/
def limits (values : List α) : α × α :=
  if minOf values = maxOf values then (minOf values - 1 / 2, maxOf values + 1 / 2) else (minOf values, maxOf values)

/-- `edges[i]` of ten bins. -/
def edge (values : List α) (i : Nat) : α := (limits values).1 + i * (((limits values).2 - (limits values).1) / 10)

/-- `n[i]` of `np.histogram`: the bins are half open, the last one includes its upper edge. -/
def hist (values : List α) (i : Nat) : Nat :=
  values.countP fun v => decide (edge values i ≤ v ∧ (v < edge values (i + 1) ∨ (i = 9 ∧ v = edge values 10)))

/-- stats.py 176-180: the loop over the bins and the value at the last edge, for one value. -/
def weightOf (values : List α) (v : α) : α :=
  let w := (List.range 10).foldl (fun acc i => if edge values i ≤ v ∧ v < edge values (i + 1) then 1 / (hist values i : α) else acc) 0
  if edge values 10 = v then 1 / (hist values 9 : α) else w

/-- `binned_weights(values,n)`, stats.py 146-182: `n` is overwritten; the result is as long as the flattened values.  (`np.max` of no values
raises ValueError: `none`.) -/
def binnedWeights (values : List α) (_n : Nat) : Option (List α) :=
  if values = [] then none else some (values.map (weightOf values))

/-! ## Properties -/

variable [IsStrictOrderedRing α]

theorem minOf_le (l : List α) : ∀ x ∈ l, minOf l ≤ x := by
  induction l with
  | nil => intro x hx; cases hx
  | cons a l ih =>
    intro x hx
    cases l with
    | nil => simp at hx; simp [minOf, hx]
    | cons b l =>
      simp only [minOf]
      rcases List.mem_cons.1 hx with rfl | hx
      · exact min_le_left _ _
      · exact le_trans (min_le_right _ _) (ih x hx)

theorem le_maxOf (l : List α) : ∀ x ∈ l, x ≤ maxOf l := by
  induction l with
  | nil => intro x hx; cases hx
  | cons a l ih =>
    intro x hx
    cases l with
    | nil => simp at hx; simp [maxOf, hx]
    | cons b l =>
      simp only [maxOf]
      rcases List.mem_cons.1 hx with rfl | hx
      · exact le_max_left _ _
      · exact le_trans (ih x hx) (le_max_right _ _)

theorem limits_lt (values : List α) (hne : values ≠ []) : (limits values).1 < (limits values).2 := by
  unfold limits
  split_ifs with h
  · simp only [h]; linarith
  · obtain ⟨x, hx⟩ := List.exists_mem_of_ne_nil _ hne
    exact lt_of_le_of_ne (le_trans (minOf_le _ x hx) (le_maxOf _ x hx)) h

theorem limits_mem (values : List α) {v : α} (hv : v ∈ values) : (limits values).1 ≤ v ∧ v ≤ (limits values).2 := by
  have h1 := minOf_le values v hv
  have h2 := le_maxOf values v hv
  unfold limits
  split_ifs with h
  · constructor <;> simp only <;> linarith
  · exact ⟨h1, h2⟩

theorem edge_succ (values : List α) (i : Nat) :
    edge values (i + 1) = edge values i + ((limits values).2 - (limits values).1) / 10 := by
  unfold edge; push_cast; ring

theorem edge_mono (values : List α) (hne : values ≠ []) {i j : Nat} (h : i < j) : edge values i < edge values j := by
  have hl := limits_lt values hne
  unfold edge
  have : (i : α) < j := by exact_mod_cast h
  have hs : 0 < ((limits values).2 - (limits values).1) / 10 := by apply div_pos <;> linarith
  have := mul_lt_mul_of_pos_right this hs
  linarith

theorem edge_last (values : List α) : edge values 10 = (limits values).2 := by
  unfold edge; push_cast; field_simp; ring

theorem edge_zero (values : List α) : edge values 0 = (limits values).1 := by
  unfold edge; simp

/-- The value is in bin `i` of the ten bins of equal width between the extreme values. -/
def InBin (values : List α) (v : α) (i : Nat) : Prop :=
  i < 10 ∧ edge values i ≤ v ∧ (v < edge values (i + 1) ∨ (i = 9 ∧ v = edge values 10))

instance (values : List α) (v : α) (i : Nat) : Decidable (InBin values v i) := by unfold InBin; infer_instance

theorem minOf_mem (l : List α) (h : l ≠ []) : minOf l ∈ l := by
  induction l with
  | nil => exact absurd rfl h
  | cons a l ih =>
    cases l with
    | nil => simp [minOf]
    | cons b l =>
      simp only [minOf]
      rcases min_choice a (minOf (b :: l)) with h | h <;> rw [h]
      · simp
      · exact List.mem_cons_of_mem _ (ih (by simp))

theorem maxOf_mem (l : List α) (h : l ≠ []) : maxOf l ∈ l := by
  induction l with
  | nil => exact absurd rfl h
  | cons a l ih =>
    cases l with
    | nil => simp [maxOf]
    | cons b l =>
      simp only [maxOf]
      rcases max_choice a (maxOf (b :: l)) with h | h <;> rw [h]
      · simp
      · exact List.mem_cons_of_mem _ (ih (by simp))

/-- C95: which bin a value is in, in terms of the least and greatest value only. -/
theorem bins_spec (values : List α) {lo hi : α} (hlo : lo ∈ values) (hhi : hi ∈ values) (hr : ∀ v ∈ values, lo ≤ v ∧ v ≤ hi) (hlt : lo < hi)
    (v : α) (i : Nat) :
    InBin values v i ↔ i < 10 ∧ lo + i * ((hi - lo) / 10) ≤ v ∧ (v < lo + (i + 1) * ((hi - lo) / 10) ∨ (i = 9 ∧ v = hi)) := by
  have hne : values ≠ [] := by rintro rfl; cases hlo
  have h1 : minOf values = lo := le_antisymm (minOf_le _ _ hlo) (hr _ (minOf_mem _ hne)).1
  have h2 : maxOf values = hi := le_antisymm (hr _ (maxOf_mem _ hne)).2 (le_maxOf _ _ hhi)
  have hl : limits values = (lo, hi) := by
    unfold limits; rw [h1, h2, if_neg hlt.ne]
  unfold InBin
  rw [edge_last]
  unfold edge
  rw [hl]
  push_cast
  rfl

/-- ... and if all values are equal they are in the middle of the bins. -/
theorem bins_equal (values : List α) {c : α} (hc : c ∈ values) (hr : ∀ v ∈ values, v = c) : InBin values c 5 := by
  have hne : values ≠ [] := by rintro rfl; cases hc
  have h1 : minOf values = c := hr _ (minOf_mem _ hne)
  have h2 : maxOf values = c := hr _ (maxOf_mem _ hne)
  have hl : limits values = (c - 1 / 2, c + 1 / 2) := by
    unfold limits; rw [h1, h2, if_pos rfl]
  unfold InBin
  unfold edge
  rw [hl]
  push_cast
  refine ⟨by norm_num, ?_, Or.inl ?_⟩ <;> ring_nf <;> linarith

theorem InBin.unique {values : List α} (hne : values ≠ []) {v : α} {i j : Nat} (hi : InBin values v i) (hj : InBin values v j) : i = j := by
  have aux : ∀ {i j : Nat}, InBin values v i → InBin values v j → ¬ i < j := by
    rintro i j ⟨hi1, hi2, hi3⟩ ⟨hj1, hj2, _⟩ hlt
    rcases hi3 with h | ⟨rfl, _⟩
    · have : edge values (i + 1) ≤ edge values j := by
        rcases Nat.lt_or_ge (i + 1) j with h' | h'
        · exact (edge_mono values hne h').le
        · have : i + 1 = j := by omega
          rw [this]
      exact absurd (lt_of_lt_of_le h this) (not_lt.2 hj2)
    · omega
  have := aux hi hj
  have := aux hj hi
  omega

theorem InBin.exists {values : List α} {v : α} (hv : v ∈ values) : ∃ i, InBin values v i := by
  obtain ⟨h1, h2⟩ := limits_mem values hv
  rw [← edge_zero] at h1
  rw [← edge_last] at h2
  by_cases hlast : v = edge values 10
  · refine ⟨9, by omega, ?_, .inr ⟨rfl, hlast⟩⟩
    rw [hlast]
    exact (edge_mono values (List.ne_nil_of_mem hv) (by omega)).le
  · have h3 : v < edge values 10 := lt_of_le_of_ne h2 hlast
    have : ∀ k, v < edge values k → ∃ i, i < k ∧ edge values i ≤ v ∧ v < edge values (i + 1) := by
      intro k
      induction k with
      | zero => intro h; exact absurd h1 (not_le.2 h)
      | succ k ih =>
        intro h
        by_cases hk : v < edge values k
        · obtain ⟨i, hi, h'⟩ := ih hk
          exact ⟨i, by omega, h'⟩
        · exact ⟨k, by omega, not_lt.1 hk, h⟩
    obtain ⟨i, hi, h4, h5⟩ := this 10 h3
    exact ⟨i, hi, h4, .inl h5⟩

theorem hist_eq (values : List α) {i : Nat} (hi : i < 10) : hist values i = values.countP fun v => decide (InBin values v i) := by
  unfold hist InBin
  apply List.countP_congr
  intro v _
  simp [hi]

theorem loop_spec (f : Nat → α) (P : Nat → Prop) [DecidablePred P] (i : Nat) (n : Nat) (hi : i < n) (hP : P i)
    (hu : ∀ j, j < n → P j → j = i) (a : α) : (List.range n).foldl (fun acc i => if P i then f i else acc) a = f i := by
  induction n with
  | zero => omega
  | succ n ih =>
    rw [List.range_succ, List.foldl_append]
    simp only [List.foldl_cons, List.foldl_nil]
    by_cases hn : P n
    · rw [if_pos hn, hu n (by omega) hn]
    · rw [if_neg hn]
      have : i ≠ n := fun h => hn (h ▸ hP)
      exact ih (by omega) (fun j hj => hu j (by omega))

/-- C95: every value gets one over the number of values in its bin. -/
theorem weight_value (values : List α) {v : α} (hv : v ∈ values) {i : Nat} (hi : InBin values v i) :
    weightOf values v = 1 / (values.countP fun w => decide (InBin values w i) : α) := by
  have hne := List.ne_nil_of_mem hv
  rw [← hist_eq values hi.1]
  unfold weightOf
  by_cases h : edge values 10 = v
  · have h9 : InBin values v 9 := ⟨by omega, by rw [← h]; exact (edge_mono values hne (by omega)).le, .inr ⟨rfl, h.symm⟩⟩
    rw [if_pos h, InBin.unique hne hi h9]
  · simp only [if_neg h]
    have hi' : edge values i ≤ v ∧ v < edge values (i + 1) := by
      refine ⟨hi.2.1, hi.2.2.resolve_right ?_⟩
      rintro ⟨_, h'⟩; exact h h'.symm
    exact loop_spec (fun i => 1 / (hist values i : α)) (fun i => edge values i ≤ v ∧ v < edge values (i + 1)) i 10 hi.1 hi'
      (fun j hj h' => InBin.unique hne ⟨hj, h'.1, .inl h'.2⟩ hi) 0

theorem binned_eq (values : List α) (n : Nat) (hne : values ≠ []) : binnedWeights values n = some (values.map (weightOf values)) := by
  simp [binnedWeights, hne]

/-- C95: the weights are positive and at most one. -/
theorem weights_range (values : List α) (n : Nat) (ws : List α) (h : binnedWeights values n = some ws) :
    ws.length = values.length ∧ ∀ w ∈ ws, 0 < w ∧ w ≤ 1 := by
  unfold binnedWeights at h
  split_ifs at h
  simp only [Option.some.injEq] at h
  subst h
  refine ⟨by simp, ?_⟩
  intro w hw
  obtain ⟨v, hv, rfl⟩ := List.mem_map.1 hw
  obtain ⟨i, hi⟩ := InBin.exists hv
  rw [weight_value values hv hi]
  have h1 : 0 < values.countP fun w => decide (InBin values w i) := List.countP_pos_iff.2 ⟨v, hv, by simpa using hi⟩
  have h2 : (1 : α) ≤ (values.countP fun w => decide (InBin values w i) : α) := by exact_mod_cast h1
  constructor
  · positivity
  · rw [div_le_one (by linarith)]; exact h2

theorem sum_const_filter (l : List α) (p : α → Bool) (f : α → α) (c : α) (h : ∀ v ∈ l, p v = true → f v = c) :
    ((l.filter p).map f).sum = l.countP p * c := by
  rw [List.countP_eq_length_filter]
  have : (l.filter p).map f = (l.filter p).map fun _ => c := by
    apply List.map_congr_left
    intro v hv
    rw [List.mem_filter] at hv
    exact h v hv.1 hv.2
  rw [this]
  simp

/-- C95: each of the ten bins that is not empty gets the same total weight, one. -/
theorem equal_shares (values : List α) (i : Nat) (h : ∃ v ∈ values, InBin values v i) :
    ((values.filter fun v => decide (InBin values v i)).map (weightOf values)).sum = 1 := by
  obtain ⟨v, hv, hi⟩ := h
  rw [sum_const_filter values _ _ (1 / (values.countP fun w => decide (InBin values w i) : α))]
  · have h1 : 0 < values.countP fun w => decide (InBin values w i) := List.countP_pos_iff.2 ⟨v, hv, by simpa using hi⟩
    have h2 : (0 : α) < (values.countP fun w => decide (InBin values w i) : α) := by exact_mod_cast h1
    field_simp
  · intro w hw hp
    exact weight_value values hw (by simpa using hp)

/-- The bins without elements are left out of a sum over values. -/
theorem sum_by_bins (l values : List α) (f : α → α) (hne : values ≠ []) (hl : ∀ v ∈ l, ∃ i, InBin values v i) :
    (l.map f).sum = ((List.range 10).map fun i => ((l.filter fun v => decide (InBin values v i)).map f).sum).sum := by
  induction l with
  | nil => simp
  | cons v l ih =>
    obtain ⟨i, hi⟩ := hl v (by simp)
    rw [List.map_cons, List.sum_cons, ih (fun w hw => hl w (by simp [hw]))]
    have key : ∀ j, ((List.filter (fun v => decide (InBin values v j)) (v :: l)).map f).sum =
        (if i = j then f v else 0) + ((l.filter fun v => decide (InBin values v j)).map f).sum := by
      intro j
      rw [List.filter_cons]
      by_cases hij : i = j
      · subst hij
        simp [hi]
      · have : ¬ InBin values v j := fun h => hij (InBin.unique hne hi h)
        simp [this, hij]
    simp only [key]
    rw [List.sum_map_add]
    congr 1
    have : ∀ n, i < n → ((List.range n).map fun j => if i = j then f v else 0).sum = f v := by
      intro n
      induction n with
      | zero => intro h; omega
      | succ n ihn =>
        intro h
        rw [List.range_succ, List.map_append, List.sum_append]
        by_cases hin : i = n
        · subst hin
          have h0 : ((List.range i).map fun j => if i = j then f v else 0) = (List.range i).map fun _ => 0 := by
            apply List.map_congr_left
            intro j hj
            rw [List.mem_range] at hj
            rw [if_neg (by omega)]
          rw [h0]
          simp
        · rw [ihn (by omega)]
          simp [hin]
    exact (this 10 hi.1).symm

/-- C95: the weights sum to the number of bins that are not empty. -/
theorem total_weight (values : List α) (n : Nat) (ws : List α) (h : binnedWeights values n = some ws) :
    ws.sum = ((List.range 10).countP fun i => decide (∃ v ∈ values, InBin values v i) : Nat) := by
  unfold binnedWeights at h
  split_ifs at h with hne
  simp only [Option.some.injEq] at h
  subst h
  rw [sum_by_bins values values _ hne (fun v hv => InBin.exists hv)]
  have e : ∀ i, ((values.filter fun v => decide (InBin values v i)).map (weightOf values)).sum =
      if (∃ v ∈ values, InBin values v i) then 1 else 0 := by
    intro i
    split_ifs with hi
    · exact equal_shares values i hi
    · have : values.filter (fun v => decide (InBin values v i)) = [] := by
        rw [List.filter_eq_nil_iff]
        intro v hv hd
        exact hi ⟨v, hv, by simpa using hd⟩
      simp [this]
  simp only [e]
  generalize List.range 10 = l
  induction l with
  | nil => simp
  | cons i l ih =>
    rw [List.map_cons, List.sum_cons, ih, List.countP_cons]
    by_cases hi : ∃ v ∈ values, InBin values v i
    · simp only [hi, if_true, decide_true]; push_cast; ring
    · rw [if_neg hi, decide_eq_false hi]; simp

/-- C95 fails for the number of bins: it is ignored. -/
theorem n_ignored (values : List α) (n m : Nat) : binnedWeights values n = binnedWeights values m := rfl

/-- ... so that asking for one bin (the share of each of the two values would be one half) gives weights one. -/
theorem one_bin_fails : binnedWeights [(0 : ℚ), 1] 1 = some [1, 1] := by decide +kernel

/-- The result for integer values (`np.zeros_like` of them): every weight is truncated towards zero. -/
def intWeights (values : List Int) (n : Nat) : Option (List Int) :=
  (binnedWeights (values.map fun v => (v : ℚ)) n).map fun l => l.map fun w => w.num.tdiv w.den

/-- C95 fails for integers: values that share a bin get the weight zero. -/
theorem integer_weights_zero : intWeights [0, 0, 10] 10 = some [0, 0, 1] ∧
    binnedWeights [(0 : ℚ), 0, 10] 10 = some [1 / 2, 1 / 2, 1] := by decide +kernel

/-- For integers a weight is one if the value is alone in its bin and zero otherwise. -/
theorem integer_weights (values : List Int) (n : Nat) (ws : List Int) (h : intWeights values n = some ws) :
    ∃ qs : List ℚ, binnedWeights (values.map fun v => (v : ℚ)) n = some qs ∧ List.Forall₂ (fun w q => w = if q = 1 then 1 else 0) ws qs := by
  unfold intWeights at h
  rw [Option.map_eq_some_iff] at h
  obtain ⟨qs, hq, rfl⟩ := h
  refine ⟨qs, hq, ?_⟩
  have hr := (weights_range _ _ _ hq).2
  clear hq
  induction qs with
  | nil => exact .nil
  | cons q qs ih =>
    refine .cons ?_ (ih fun w hw => hr w (by simp [hw]))
    obtain ⟨h0, h1⟩ := hr q (by simp)
    split_ifs with hq1
    · rw [hq1]; rfl
    · have hlt : q < 1 := lt_of_le_of_ne h1 hq1
      have hnum : 0 < q.num := Rat.num_pos.2 h0
      have hnd : q.num < q.den := by
        have := Rat.num_div_den q
        have hd : (0 : ℚ) < q.den := by exact_mod_cast q.den_pos
        rw [← this, div_lt_one hd] at hlt
        exact_mod_cast hlt
      exact Int.tdiv_eq_zero_of_lt hnum.le hnd

example : ∃ ws, binnedWeights [(0 : ℚ), 1 / 2, 3, 3] 10 = some ws ∧ ws.sum = 3 := ⟨[1, 1, 1 / 2, 1 / 2], by decide +kernel, by norm_num⟩

end Verif.StatsBins
