import Verif.AlgBackground
import Mathlib.Tactic.FieldSimp
import Mathlib.Tactic.Linarith
import Mathlib.Tactic.Positivity

/-!
# Robust statistics (astropysics/utils/stats.py 185-275)

Exact arithmetic in a linearly ordered field; `np.median` as in Alg.lean.  Division by zero (numpy: nan or inf with a
warning) is `none`.
-/

namespace Verif.Stats

open Verif.Alg (median)

variable {α : Type} [Field α] [LinearOrder α]

/-- `median_absolute_deviation(values,scaletonormal,cenestimator)`, stats.py 209-236: `cenestimator` is never called.  `nrm` is
`2**0.5*erfinv(.5)`. -/
def mad (nrm : α) (values : List α) (scaletonormal : Bool) (_cen : List α → Option α) : Option α :=
  match median values with
  | none => none
  | some m =>
    match median (values.map (fun x => |x - m|)) with
    | none => none
    | some res => if scaletonormal then some (res / nrm) else some res

/-- One summand of `numer`, stats.py 266-270 (`I` is 0 or 1). -/
def numerTerm (Q w x : α) : α :=
  let ui := (x - Q) / w
  (if ui ^ 2 ≤ 1 then 1 else 0) * (x - Q) ^ 2 * (1 - ui ^ 2) ^ 4

/-- One summand of `denom`, stats.py 271. -/
def denomTerm (Q w x : α) : α :=
  let ui := (x - Q) / w
  (if ui ^ 2 ≤ 1 then 1 else 0) * (1 - ui ^ 2) * (1 - 5 * ui ^ 2)

/-- `biweight_midvariance(values,influencescale,cenestimator)`, stats.py 238-274. -/
def biweight (values : List α) (scale : α) (cen : List α → Option α) : Option (α × α) :=
  match cen values with
  | none => none
  | some Q =>
    match mad 1 values false cen with
    | none => none
    | some MAD =>
      if scale * MAD = 0 then none
      else
        let numer := (values.map (numerTerm Q (scale * MAD))).sum
        let denom := (values.map (denomTerm Q (scale * MAD))).sum ^ 2
        if denom = 0 then none else some (values.length * numer / denom, Q)

/-- `scipy.stats.scoreatpercentile(x,25*k)` (linear interpolation between the order statistics next to position `k*(n-1)/4`). -/
def quartile (values : List α) (k : Nat) : Option α :=
  let s := values.insertionSort (· ≤ ·)
  let i := k * (s.length - 1) / 4
  let r := k * (s.length - 1) % 4
  if r = 0 then s[i]?
  else match s[i]?, s[i + 1]? with
    | some a, some b => some (a + (b - a) * ((r : α) / 4))
    | _, _ => none

/-- `interquartile_range(values,scaletonormal)`, stats.py 185-207; `nrm` is `8**0.5*erfinv(.5)`. -/
def iqr (nrm : α) (values : List α) (scaletonormal : Bool) : Option α :=
  match quartile values 3, quartile values 1 with
  | some a, some b => if scaletonormal then some ((a - b) / nrm) else some (a - b)
  | _, _ => none

/-! ## Order statistics -/

variable [IsStrictOrderedRing α]

/-- The sorted data. -/
def srt (l : List α) : List α := l.insertionSort (· ≤ ·)

omit [IsStrictOrderedRing α] [Field α] in
theorem srt_perm (l : List α) : (srt l).Perm l := List.perm_insertionSort _ l
omit [IsStrictOrderedRing α] [Field α] in
theorem srt_sorted (l : List α) : (srt l).Pairwise (· ≤ ·) := List.pairwise_insertionSort _ l
omit [IsStrictOrderedRing α] [Field α] in
theorem srt_length (l : List α) : (srt l).length = l.length := (srt_perm l).length_eq

omit [IsStrictOrderedRing α] [Field α] in
theorem le_getElem {s : List α} (h : s.Pairwise (· ≤ ·)) {i j : Nat} (hij : i ≤ j) (hj : j < s.length) : s[i] ≤ s[j] := by
  rcases Nat.lt_or_eq_of_le hij with h' | rfl
  · exact List.pairwise_iff_getElem.1 h _ _ _ _ h'
  · exact le_refl _

omit [IsStrictOrderedRing α] [Field α] in
theorem sorted_le_iff {s : List α} (h : s.Pairwise (· ≤ ·)) (t : α) : ∀ {k : Nat} (hk : k < s.length),
    s[k] ≤ t ↔ k < s.countP (fun x => decide (x ≤ t)) := by
  induction s with
  | nil => intro k hk; simp at hk
  | cons a s ih =>
    intro k hk
    rw [List.pairwise_cons] at h
    by_cases hat : a ≤ t
    · rw [List.countP_cons_of_pos (by simpa using hat)]
      cases k with
      | zero => simp [hat]
      | succ k =>
        have := ih h.2 (k := k) (by simpa using hk)
        simp only [List.getElem_cons_succ]
        rw [this]; omega
    · rw [List.countP_cons_of_neg (by simpa using hat)]
      have h0 : s.countP (fun x => decide (x ≤ t)) = 0 := by
        rw [List.countP_eq_zero]
        intro x hx hxt
        exact hat (le_trans (h.1 x hx) (by simpa using hxt))
      rw [h0]
      have : a ≤ (a :: s)[k] := by
        have hs : (a :: s).Pairwise (· ≤ ·) := List.pairwise_cons.2 h
        exact le_getElem hs (Nat.zero_le k) hk
      constructor
      · intro hh; exact absurd (le_trans this hh) hat
      · intro hh; exact absurd hh (Nat.not_lt_zero _)

omit [IsStrictOrderedRing α] [Field α] in
/-- The `k`-th smallest value is at most `t` if and only if more than `k` data are. -/
theorem kth_le_iff (l : List α) (t : α) {k : Nat} (hk : k < (srt l).length) :
    (srt l)[k] ≤ t ↔ k < l.countP (fun x => decide (x ≤ t)) := by
  rw [sorted_le_iff (srt_sorted l) t hk, (srt_perm l).countP_eq]

omit [IsStrictOrderedRing α] [Field α] in
/-- The `k`-th smallest value is at least `t` if and only if at most `k` data are less. -/
theorem le_kth_iff (l : List α) (t : α) {k : Nat} (hk : k < (srt l).length) :
    t ≤ (srt l)[k] ↔ l.countP (fun x => decide (x < t)) ≤ k := by
  rw [← (srt_perm l).countP_eq (fun x => decide (x < t))]
  have hs := srt_sorted l
  generalize srt l = s at *
  induction s generalizing k with
  | nil => simp at hk
  | cons a s ih =>
    rw [List.pairwise_cons] at hs
    by_cases hat : a < t
    · rw [List.countP_cons_of_pos (by simpa using hat)]
      cases k with
      | zero => simp [hat]
      | succ k =>
        simp only [List.getElem_cons_succ]
        rw [iff_iff_eq.1 (ih (k := k) (by simpa using hk) hs.2)]; omega
    · rw [List.countP_cons_of_neg (by simpa using hat)]
      have h0 : s.countP (fun x => decide (x < t)) = 0 := by
        rw [List.countP_eq_zero]
        intro x hx hxt
        exact hat (lt_of_le_of_lt (hs.1 x hx) (by simpa using hxt))
      rw [h0]
      simp only [Nat.zero_le, iff_true]
      have := le_getElem (List.pairwise_cons.2 hs) (Nat.zero_le k) hk
      exact le_trans (not_lt.1 hat) this

omit [IsStrictOrderedRing α] in
/-- The median in terms of the order statistics. -/
theorem median_eq (l : List α) (hl : l ≠ []) :
    ∃ (h0 : (l.length - 1) / 2 < (srt l).length) (h1 : l.length / 2 < (srt l).length),
      median l = some (if l.length % 2 = 1 then (srt l)[l.length / 2] else ((srt l)[(l.length - 1) / 2] + (srt l)[l.length / 2]) / 2) := by
  have hlen := srt_length l
  have hpos := List.length_pos_of_ne_nil hl
  refine ⟨by omega, by omega, ?_⟩
  unfold median
  have hlen' : (l.insertionSort (· ≤ ·)).length = l.length := hlen
  simp only [hlen']
  change (if l.length % 2 = 1 then (srt l)[l.length / 2]? else
    match (srt l)[l.length / 2 - 1]?, (srt l)[l.length / 2]? with
    | some a, some b => some ((a + b) / 2)
    | _, _ => none) = _
  split
  · rw [List.getElem?_eq_getElem (by omega)]
  · have e : l.length / 2 - 1 = (l.length - 1) / 2 := by omega
    rw [List.getElem?_eq_getElem (show l.length / 2 < (srt l).length by omega), e,
      List.getElem?_eq_getElem (show (l.length - 1) / 2 < (srt l).length by omega)]

/-- The median lies between the two middle order statistics. -/
theorem median_mid (l : List α) (m : α) (hm : median l = some m) :
    ∃ (h0 : (l.length - 1) / 2 < (srt l).length) (h1 : l.length / 2 < (srt l).length),
      m = ((srt l)[(l.length - 1) / 2] + (srt l)[l.length / 2]) / 2 ∧ (srt l)[(l.length - 1) / 2] ≤ m ∧ m ≤ (srt l)[l.length / 2] := by
  have hl : l ≠ [] := by rintro rfl; simp [median] at hm
  obtain ⟨h0, h1, e⟩ := median_eq l hl
  refine ⟨h0, h1, ?_⟩
  have hle : (srt l)[(l.length - 1) / 2] ≤ (srt l)[l.length / 2] := le_getElem (srt_sorted l) (by omega) h1
  rw [hm] at e
  simp only [Option.some.injEq] at e
  have key : m = ((srt l)[(l.length - 1) / 2] + (srt l)[l.length / 2]) / 2 := by
    rw [e]
    split
    · have : (l.length - 1) / 2 = l.length / 2 := by omega
      simp only [this]; ring
    · rfl
  refine ⟨key, ?_, ?_⟩ <;> rw [key] <;> linarith

theorem median_exists (l : List α) (hl : l ≠ []) : ∃ m, median l = some m := by
  obtain ⟨_, _, e⟩ := median_eq l hl; exact ⟨_, e⟩

/-- If more than half of the data are at most `b`, so is the median. -/
theorem median_le_of_count (l : List α) (m b : α) (hm : median l = some m) (h : l.length < 2 * l.countP (fun x => decide (x ≤ b))) : m ≤ b := by
  obtain ⟨h0, h1, _, _, h4⟩ := median_mid l m hm
  exact le_trans h4 ((kth_le_iff l b h1).2 (by omega))

theorem le_median_of_count (l : List α) (m a : α) (hm : median l = some m) (h : l.length < 2 * l.countP (fun x => decide (a ≤ x))) : a ≤ m := by
  obtain ⟨h0, h1, _, h3, _⟩ := median_mid l m hm
  refine le_trans ((le_kth_iff l a h0).2 ?_) h3
  have := List.length_eq_countP_add_countP (fun x => decide (a ≤ x)) (l := l)
  have e : l.countP (fun x => decide (x < a)) = l.countP (fun x => decide ¬(decide (a ≤ x)) = true) := by
    congr 1; funext x; simp
  omega

omit [IsStrictOrderedRing α] [Field α] in
theorem srt_eq_of_perm {l l' : List α} (h : l.Perm l') : srt l = srt l' :=
  List.Perm.eq_of_pairwise' (r := (· ≤ ·)) (srt_sorted l) (srt_sorted l') ((srt_perm l).trans (h.trans (srt_perm l').symm))

omit [IsStrictOrderedRing α] in
theorem median_perm {l l' : List α} (h : l.Perm l') : median l = median l' := by
  have : l.insertionSort (· ≤ ·) = l'.insertionSort (· ≤ ·) := srt_eq_of_perm h
  unfold median
  rw [this]

omit [IsStrictOrderedRing α] [Field α] in
/-- Two lists of the same length whose numbers of small values agree have the same small order statistics. -/
theorem kth_congr (l l' : List α) (T : α) (hT : ∀ t, t < T → l.countP (fun x => decide (x ≤ t)) = l'.countP (fun x => decide (x ≤ t)))
    {k : Nat} (hk : k < (srt l).length) (hk' : k < (srt l').length) (h : (srt l)[k] < T) : (srt l')[k] = (srt l)[k] := by
  have h1 : (srt l')[k] ≤ (srt l)[k] := by
    rw [kth_le_iff l' _ hk', ← hT _ h, ← kth_le_iff l _ hk]
  have h2 : (srt l)[k] ≤ (srt l')[k] := by
    rw [kth_le_iff l _ hk, hT _ (lt_of_le_of_lt h1 h), ← kth_le_iff l' _ hk']
  exact le_antisymm h1 h2

end Verif.Stats
