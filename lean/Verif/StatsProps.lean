import Verif.Stats

/-!
# Robust statistics: properties (C91)
-/

namespace Verif.Stats

open Verif.Alg (median IsMedian)

variable {α : Type} [Field α] [LinearOrder α] [IsStrictOrderedRing α]

/-! ## Medians of transformed data -/

theorem srt_neg (l : List α) : srt (l.map (- ·)) = ((srt l).map (- ·)).reverse := by
  apply List.Perm.eq_of_pairwise' (r := (· ≤ ·)) (srt_sorted _)
  · rw [List.pairwise_reverse, List.pairwise_map]
    exact (srt_sorted l).imp (fun h => neg_le_neg h)
  · exact (srt_perm _).trans (((srt_perm l).map _).symm.trans (List.reverse_perm _).symm)

theorem median_neg (l : List α) : median (l.map (- ·)) = (median l).map (- ·) := by
  by_cases hl : l = []
  · subst hl; simp [median]
  obtain ⟨m, hm⟩ := median_exists l hl
  obtain ⟨m', hm'⟩ := median_exists (l.map (- ·)) (by simpa using hl)
  obtain ⟨h0, h1, e, _⟩ := median_mid l m hm
  obtain ⟨h0', h1', e', _⟩ := median_mid _ m' hm'
  have hpos := List.length_pos_of_ne_nil hl
  rw [hm, hm', Option.map_some, e, e']
  have hlen := srt_length l
  simp only [srt_neg, List.length_map, List.getElem_reverse, List.getElem_map, hlen]
  have i1 : l.length - 1 - (l.length - 1) / 2 = l.length / 2 := by omega
  have i2 : l.length - 1 - l.length / 2 = (l.length - 1) / 2 := by omega
  simp only [i1, i2]
  congr 1; ring

/-- The median of scaled and shifted data is the scaled and shifted median, for every factor. -/
theorem median_affine' (l : List α) (s c : α) : median (l.map (fun x => s * x + c)) = (median l).map (fun x => s * x + c) := by
  rcases lt_trichotomy s 0 with hs | hs | hs
  · have e : l.map (fun x => s * x + c) = (l.map (- ·)).map (fun x => (-s) * x + c) := by simp
    rw [e, Alg.median_affine _ _ _ (by linarith), median_neg, Option.map_map]
    congr 1; funext x; simp
  · subst hs
    by_cases hl : l = []
    · subst hl; simp [median]
    obtain ⟨m, hm⟩ := median_exists l hl
    obtain ⟨m', hm'⟩ := median_exists (l.map (fun x => 0 * x + c)) (by simpa using hl)
    rw [hm, hm']
    have h1 : m' ≤ c := by
      apply median_le_of_count _ _ _ hm'
      rw [List.countP_eq_length.2 (by simp)]
      have := List.length_pos_of_ne_nil hl
      simp only [List.length_map]; omega
    have h2 : c ≤ m' := by
      apply le_median_of_count _ _ _ hm'
      rw [List.countP_eq_length.2 (by simp)]
      have := List.length_pos_of_ne_nil hl
      simp only [List.length_map]; omega
    simp [le_antisymm h1 h2]
  · exact Alg.median_affine l s c hs

/-! ## Median absolute deviation -/

/-- The MAD, written out. -/
theorem mad_eq (nrm : α) (l : List α) (sc : Bool) (cen : List α → Option α) (m : α) (hm : median l = some m) :
    mad nrm l sc cen = (median (l.map (fun x => |x - m|))).map (fun d => if sc then d / nrm else d) := by
  unfold mad
  rw [hm]
  simp only
  cases median (l.map (fun x => |x - m|)) with
  | none => rfl
  | some d => cases sc <;> rfl

/-- C91: for nonempty data the MAD exists and is a median of the distances of the data from a median of the data (divided by the
constant if asked for). -/
theorem mad_spec (nrm : α) (l : List α) (hl : l ≠ []) (sc : Bool) (cen : List α → Option α) :
    ∃ m d, IsMedian l m ∧ IsMedian (l.map (fun x => |x - m|)) d ∧ 0 ≤ d ∧ mad nrm l sc cen = some (if sc then d / nrm else d) := by
  obtain ⟨m, hm, h1⟩ := Alg.median_spec l hl
  obtain ⟨d, hd, h2⟩ := Alg.median_spec (l.map (fun x => |x - m|)) (by simpa using hl)
  refine ⟨m, d, h1, h2, ?_, by rw [mad_eq nrm l sc cen m hm, hd]; rfl⟩
  apply le_median_of_count _ _ _ hd
  rw [List.countP_eq_length.2]
  · have := List.length_pos_of_ne_nil hl
    simp only [List.length_map]; omega
  · intro x hx
    obtain ⟨y, _, rfl⟩ := List.mem_map.1 hx
    simp

example : mad (2/3 : ℚ) [1, 2, 3, 4, 100] true (fun _ => none) = some (3/2) := by decide +kernel

/-- C91: scaling and shifting the data scales the MAD by the size of the factor. -/
theorem mad_affine (nrm : α) (l : List α) (sc : Bool) (cen : List α → Option α) (s c : α) :
    mad nrm (l.map (fun x => s * x + c)) sc cen = (mad nrm l sc cen).map (fun d => |s| * d) := by
  by_cases hl : l = []
  · subst hl; simp [mad, median]
  obtain ⟨m, hm⟩ := median_exists l hl
  have hm' := median_affine' l s c
  rw [hm, Option.map_some] at hm'
  rw [mad_eq _ _ _ _ _ hm, mad_eq _ _ _ _ _ hm']
  have e : (l.map (fun x => s * x + c)).map (fun x => |x - (s * m + c)|) = (l.map (fun x => |x - m|)).map (fun d => |s| * d + 0) := by
    rw [List.map_map, List.map_map]
    congr 1; funext x
    simp only [Function.comp, add_zero]
    rw [← abs_mul]; congr 1; ring
  rw [e, median_affine', Option.map_map, Option.map_map]
  congr 1; funext d
  cases sc <;> simp [mul_div_assoc]

/-- C91: the order of the data does not matter. -/
theorem mad_perm (nrm : α) {l l' : List α} (h : l.Perm l') (sc : Bool) (cen : List α → Option α) : mad nrm l sc cen = mad nrm l' sc cen := by
  unfold mad
  rw [median_perm h]
  cases median l' with
  | none => rfl
  | some m => simp only [median_perm (h.map (fun x => |x - m|))]

/-- C91 (breakdown point one half): if more than half of the data lie in `[a,b]`, then the median lies there and the MAD is at most
`b - a`, whatever the other data are. -/
theorem mad_robust (l : List α) (a b : α) (cen : List α → Option α)
    (h : l.length < 2 * l.countP (fun x => decide (a ≤ x ∧ x ≤ b))) :
    ∃ m d, median l = some m ∧ mad 1 l false cen = some d ∧ a ≤ m ∧ m ≤ b ∧ d ≤ b - a := by
  have hl : l ≠ [] := by rintro rfl; simp at h
  obtain ⟨m, hm⟩ := median_exists l hl
  obtain ⟨d, hd⟩ := median_exists (l.map (fun x => |x - m|)) (by simpa using hl)
  have c1 : l.countP (fun x => decide (a ≤ x ∧ x ≤ b)) ≤ l.countP (fun x => decide (x ≤ b)) :=
    List.countP_mono_left (fun x _ hx => by simp at hx ⊢; exact hx.2)
  have c2 : l.countP (fun x => decide (a ≤ x ∧ x ≤ b)) ≤ l.countP (fun x => decide (a ≤ x)) :=
    List.countP_mono_left (fun x _ hx => by simp at hx ⊢; exact hx.1)
  have hmb : m ≤ b := median_le_of_count l m b hm (by omega)
  have ham : a ≤ m := le_median_of_count l m a hm (by omega)
  refine ⟨m, d, hm, ?_, ham, hmb, ?_⟩
  · rw [mad_eq _ _ _ _ _ hm, hd]; rfl
  · apply median_le_of_count _ _ _ hd
    rw [List.length_map, List.countP_map]
    have c3 : l.countP (fun x => decide (a ≤ x ∧ x ≤ b)) ≤ l.countP ((fun x => decide (x ≤ b - a)) ∘ fun x => |x - m|) :=
      List.countP_mono_left (fun x _ hx => by
        simp at hx ⊢
        rw [abs_le]; constructor <;> linarith [hx.1, hx.2])
    omega

/-- C91: the MAD is zero if and only if more than half of the data are equal to the median. -/
theorem mad_zero_iff (l : List α) (cen : List α → Option α) (m : α) (hm : median l = some m) :
    mad 1 l false cen = some 0 ↔ l.length < 2 * l.count m := by
  have hl : l ≠ [] := by rintro rfl; simp [median] at hm
  obtain ⟨d, hd⟩ := median_exists (l.map (fun x => |x - m|)) (by simpa using hl)
  obtain ⟨h0, h1, e, _⟩ := median_mid _ d hd
  have hpos := List.length_pos_of_ne_nil hl
  have hnn : ∀ k (hk : k < (srt (l.map (fun x => |x - m|))).length), 0 ≤ (srt (l.map (fun x => |x - m|)))[k] := by
    intro k hk
    have := (srt_perm (l.map (fun x => |x - m|))).mem_iff.1 (List.getElem_mem hk)
    obtain ⟨y, _, hy⟩ := List.mem_map.1 this
    rw [← hy]; exact abs_nonneg _
  have hc : (l.map (fun x => |x - m|)).countP (fun x => decide (x ≤ 0)) = l.count m := by
    rw [List.countP_map, List.count]
    apply List.countP_congr
    intro x _
    simp [sub_eq_zero]
  rw [mad_eq _ _ _ _ _ hm, hd]
  simp only [Option.map_some, Bool.false_eq_true, if_false, Option.some.injEq]
  have k1 := kth_le_iff (l.map (fun x => |x - m|)) 0 h1
  rw [hc] at k1
  simp only [List.length_map] at k1 e h0 h1
  have hle : (srt (l.map (fun x => |x - m|)))[(l.length - 1) / 2] ≤ (srt (l.map (fun x => |x - m|)))[l.length / 2] :=
    le_getElem (srt_sorted _) (by omega) h1
  have p0 := hnn _ h0
  have p1 := hnn _ h1
  constructor
  · intro hd0
    rw [hd0] at e
    have := k1.1 (by linarith)
    omega
  · intro h
    have := k1.2 (by omega)
    rw [e]
    have : (srt (l.map (fun x => |x - m|)))[l.length / 2] = 0 := le_antisymm this p1
    rw [this] at hle ⊢
    rw [le_antisymm hle p0]; simp

example : mad (1 : ℚ) [1, 1, 1, 7, 100] false (fun _ => none) = some 0 := (mad_zero_iff _ _ 1 (by decide +kernel)).2 (by decide +kernel)
example : mad (1 : ℚ) [1, 1, 7, 100] false (fun _ => none) ≠ some 0 := by decide +kernel

/-- C91 fails for `cenestimator`: the documentation says the deviations are taken from the centre it estimates, but it is ignored:
with the mean, [0,0,3] has deviations 1,1,2 with median 1; the result is 0. -/
theorem cenestimator_ignored :
    (∀ (nrm : α) l sc (cen cen' : List α → Option α), mad nrm l sc cen = mad nrm l sc cen') ∧
    (∃ l : List ℚ, Alg.mean l = some 1 ∧ median (l.map (fun x => |x - 1|)) = some 1 ∧ mad 1 l false Alg.mean = some 0) := by
  refine ⟨fun _ _ _ _ _ => rfl, [0, 0, 3], ?_, ?_, ?_⟩ <;> decide +kernel

end Verif.Stats
