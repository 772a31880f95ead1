import Verif.AlgProps
import Mathlib.Tactic.FieldSimp

/-!
# Medians, means and background estimates (astropysics/utils/alg.py 310-350) (C73)
-/

namespace Verif.Alg

variable {α : Type} [Field α] [LinearOrder α] [IsStrictOrderedRing α]

/-- `m` is a median of `l`: at least half of the data are not above it and at least half not below it. -/
def IsMedian (l : List α) (m : α) : Prop :=
  l.length ≤ 2 * l.countP (fun x => decide (x ≤ m)) ∧ l.length ≤ 2 * l.countP (fun x => decide (m ≤ x))

theorem countP_ge_take (p : α → Bool) (l : List α) (k : Nat) (hk : k ≤ l.length) (h : ∀ i, (hi : i < l.length) → i < k → p l[i] = true) :
    k ≤ l.countP p := by
  have h1 : (l.take k).countP p = (l.take k).length := by
    rw [List.countP_eq_length]
    intro a ha
    obtain ⟨i, hi, rfl⟩ := List.mem_iff_getElem.1 ha
    simp only [List.length_take] at hi
    rw [List.getElem_take]
    exact h i (by omega) (by omega)
  have h2 : (l.take k).countP p ≤ l.countP p := List.Sublist.countP_le (List.take_sublist k l)
  simp only [List.length_take] at h1
  omega

theorem countP_ge_drop (p : α → Bool) (l : List α) (k : Nat) (h : ∀ i, (hi : i < l.length) → k ≤ i → p l[i] = true) :
    l.length - k ≤ l.countP p := by
  have h1 : (l.drop k).countP p = (l.drop k).length := by
    rw [List.countP_eq_length]
    intro a ha
    obtain ⟨i, hi, rfl⟩ := List.mem_iff_getElem.1 ha
    simp only [List.length_drop] at hi
    rw [List.getElem_drop]
    exact h _ (by omega) (by omega)
  have h2 : (l.drop k).countP p ≤ l.countP p := List.Sublist.countP_le (List.drop_sublist k l)
  simp only [List.length_drop] at h1
  omega

/-- C73: the median of nonempty data exists and has half of the data on either side. -/
theorem median_spec (l : List α) (hl : l ≠ []) : ∃ m, median l = some m ∧ IsMedian l m := by
  have hp : (l.insertionSort (· ≤ ·)).Perm l := List.perm_insertionSort _ l
  have hs : (l.insertionSort (· ≤ ·)).Pairwise (· ≤ ·) := List.pairwise_insertionSort _ l
  have hpos : 0 < l.length := List.length_pos_of_ne_nil hl
  have key : ∀ m : α, IsMedian (l.insertionSort (· ≤ ·)) m → IsMedian l m := by
    intro m h
    unfold IsMedian at h ⊢
    rwa [hp.length_eq, hp.countP_eq, hp.countP_eq] at h
  have hlen := hp.length_eq
  unfold median
  generalize l.insertionSort (· ≤ ·) = s at *
  dsimp only
  split
  · rename_i hodd
    have hi : s.length / 2 < s.length := by omega
    refine ⟨s[s.length / 2], List.getElem?_eq_getElem hi, key _ ⟨?_, ?_⟩⟩
    · have := countP_ge_take (fun x => decide (x ≤ s[s.length / 2])) s (s.length / 2 + 1) (by omega)
        (fun i hi' hk => decide_eq_true (sorted_le hs (by omega) hi))
      omega
    · have := countP_ge_drop (fun x => decide (s[s.length / 2] ≤ x)) s (s.length / 2)
        (fun i hi' hk => decide_eq_true (sorted_le hs hk hi'))
      omega
  · rename_i heven
    have hi : s.length / 2 < s.length := by omega
    have hj : s.length / 2 - 1 < s.length := by omega
    rw [List.getElem?_eq_getElem hi, List.getElem?_eq_getElem hj]
    have hab := sorted_le hs (show s.length / 2 - 1 ≤ s.length / 2 by omega) hi
    refine ⟨_, rfl, key _ ⟨?_, ?_⟩⟩
    · have := countP_ge_take (fun x => decide (x ≤ (s[s.length / 2 - 1] + s[s.length / 2]) / 2)) s (s.length / 2) (by omega)
        (fun i hi' hk => decide_eq_true (by
          have := sorted_le hs (show i ≤ s.length / 2 - 1 by omega) hj
          linarith))
      omega
    · have := countP_ge_drop (fun x => decide ((s[s.length / 2 - 1] + s[s.length / 2]) / 2 ≤ x)) s (s.length / 2)
        (fun i hi' hk => decide_eq_true (by
          have := sorted_le hs hk hi'
          linarith))
      omega

theorem median_affine (l : List α) (s c : α) (hs : 0 < s) : median (l.map (fun x => s * x + c)) = (median l).map (fun x => s * x + c) := by
  have hm : (l.map (fun x => s * x + c)).insertionSort (· ≤ ·) = (l.insertionSort (· ≤ ·)).map (fun x => s * x + c) := by
    symm
    apply List.map_insertionSort
    intro a _ b _
    constructor
    · intro h; have := mul_le_mul_of_nonneg_left h hs.le; linarith
    · intro h; have : s * a ≤ s * b := by linarith
      exact le_of_mul_le_mul_left this hs
  unfold median
  rw [hm]
  generalize l.insertionSort (· ≤ ·) = t
  simp only [List.length_map, List.getElem?_map]
  split
  · rfl
  · cases t[t.length / 2 - 1]? <;> cases t[t.length / 2]? <;> simp
    ring

theorem sum_affine (l : List α) (s c : α) : (l.map (fun x => s * x + c)).sum = s * l.sum + l.length * c := by
  induction l with
  | nil => simp
  | cons a l ih => simp [ih]; ring

theorem mean_affine (l : List α) (s c : α) : mean (l.map (fun x => s * x + c)) = (mean l).map (fun x => s * x + c) := by
  unfold mean
  by_cases hl : l = []
  · simp [hl]
  · have hpos : (0 : α) < l.length := by exact_mod_cast List.length_pos_of_ne_nil hl
    simp only [List.map_eq_nil_iff, hl, if_false, Option.map_some, Option.some.injEq, sum_affine, List.length_map]
    field_simp

/-- The methods that look at the data. -/
def Method.fromData : Method α → Prop
  | .median | .mean | .m32 | .m2515 | .m21 => True
  | _ => False

/-- C73: rescaling the data and adding a level rescales the background estimate and adds the level. -/
theorem background_affine (m : Method α) (hm : m.fromData) (l : List α) (s c : α) (hs : 0 < s) :
    estimateBackground m (l.map (fun x => s * x + c)) = (estimateBackground m l).map (fun x => s * x + c) := by
  cases m with
  | none => exact absurd hm id
  | scalar _ => exact absurd hm id
  | callable _ => exact absurd hm id
  | median => exact median_affine l s c hs
  | mean => exact mean_affine l s c
  | m32 =>
    simp only [estimateBackground, median_affine l s c hs, mean_affine]
    cases median l <;> cases mean l <;> simp; ring
  | m2515 =>
    simp only [estimateBackground, median_affine l s c hs, mean_affine]
    cases median l <;> cases mean l <;> simp; ring
  | m21 =>
    simp only [estimateBackground, median_affine l s c hs, mean_affine]
    cases median l <;> cases mean l <;> simp; ring

/-- C73: the background of a flat image is its level, whatever the method that looks at the data. -/
theorem background_flat (m : Method α) (hm : m.fromData) (n : Nat) (c : α) :
    estimateBackground m (List.replicate (n + 1) c) = some c := by
  have hmean : mean (List.replicate (n + 1) c) = some c := by
    have h : ((n + 1 : Nat) : α) ≠ 0 := by exact_mod_cast Nat.succ_ne_zero n
    simp only [mean, List.replicate_eq_nil_iff, Nat.succ_ne_zero, if_false, List.sum_replicate, List.length_replicate, nsmul_eq_mul]
    congr 1
    field_simp
  have hmed : median (List.replicate (n + 1) c) = some c := by
    have hsort : (List.replicate (n + 1) c).insertionSort (· ≤ ·) = List.replicate (n + 1) c := by
      apply List.Pairwise.insertionSort_eq
      rw [List.pairwise_replicate]; right; exact le_refl c
    unfold median
    rw [hsort]
    simp only [List.length_replicate, List.getElem?_replicate]
    split
    · rw [if_pos (by omega)]
    · rw [if_pos (by omega), if_pos (by omega)]; exact congrArg some (add_self_div_two c)
  cases m with
  | none => exact absurd hm id
  | scalar _ => exact absurd hm id
  | callable _ => exact absurd hm id
  | median => exact hmed
  | mean => exact hmean
  | m32 => simp only [estimateBackground, hmed, hmean]; simp; ring
  | m2515 => simp only [estimateBackground, hmed, hmean]; simp; ring
  | m21 => simp only [estimateBackground, hmed, hmean]; simp; ring

/-- C73: the combined methods are the documented combinations of a median (half of the data on either side) and the mean: 3 median - 2 mean,
2.5 median - 1.5 mean, 2 median - mean; a number is returned as given, None gives 0, a callable is applied. -/
theorem background_methods (l : List α) (hl : l ≠ []) :
    ∃ md mn : α, IsMedian l md ∧ mn * l.length = l.sum ∧
      estimateBackground .median l = some md ∧ estimateBackground .mean l = some mn ∧
      estimateBackground .m32 l = some (3 * md - 2 * mn) ∧ estimateBackground .m2515 l = some ((5 * md - 3 * mn) / 2) ∧
      estimateBackground .m21 l = some (2 * md - mn) ∧
      (∀ c, estimateBackground (.scalar c) l = some c) ∧ estimateBackground .none l = some 0 ∧
      ∀ f, estimateBackground (.callable f) l = f l := by
  obtain ⟨md, h1, h2⟩ := median_spec l hl
  have hpos : (l.length : α) ≠ 0 := by exact_mod_cast (List.length_pos_of_ne_nil hl).ne'
  have hmn : mean l = some (l.sum / l.length) := by simp [mean, hl]
  refine ⟨md, l.sum / l.length, h2, by field_simp, h1, hmn, ?_, ?_, ?_, fun _ => rfl, rfl, fun _ => rfl⟩
  · simp [estimateBackground, h1, hmn]
  · simp only [estimateBackground, h1, hmn]; simp; ring
  · simp [estimateBackground, h1, hmn]

example : estimateBackground .m32 [(10 : ℚ), 12, 11, 30] = some 3 := by decide +kernel

end Verif.Alg
