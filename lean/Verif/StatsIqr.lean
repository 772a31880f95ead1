import Verif.StatsBiweight

/-!
# Interquartile range: properties (C92)
-/

namespace Verif.Stats

open Verif.Alg (median IsMedian)

variable {α : Type} [Field α] [LinearOrder α] [IsStrictOrderedRing α]

/-- A quartile lies between two neighbouring order statistics, at the position `k (n-1)/4`. -/
theorem quartile_eq (l : List α) (hl : l ≠ []) (k : Nat) (hk : k ≤ 4) :
    ∃ (h0 : k * (l.length - 1) / 4 < (srt l).length) (h1 : (k * (l.length - 1) + 3) / 4 < (srt l).length) (q w : α),
      quartile l k = some q ∧ 0 ≤ w ∧ w ≤ 1 ∧ w * 4 = (k * (l.length - 1) % 4 : Nat) ∧
      q = (srt l)[k * (l.length - 1) / 4] + ((srt l)[(k * (l.length - 1) + 3) / 4] - (srt l)[k * (l.length - 1) / 4]) * w := by
  have hlen := srt_length l
  have hpos := List.length_pos_of_ne_nil hl
  have hb : k * (l.length - 1) ≤ 4 * (l.length - 1) := Nat.mul_le_mul_right _ hk
  have h0 : k * (l.length - 1) / 4 < (srt l).length := by omega
  have h1 : (k * (l.length - 1) + 3) / 4 < (srt l).length := by omega
  refine ⟨h0, h1, ?_⟩
  have hlen' : (l.insertionSort (· ≤ ·)).length = l.length := hlen
  have hr : ((k * (l.length - 1) % 4 : Nat) : α) ≤ 4 := by
    have : k * (l.length - 1) % 4 ≤ 4 := by omega
    exact_mod_cast this
  by_cases hz : k * (l.length - 1) % 4 = 0
  · refine ⟨(srt l)[k * (l.length - 1) / 4], 0, ?_, le_refl _, by simp, by simp [hz], by simp⟩
    unfold quartile
    simp only [hlen', hz, if_true]
    exact List.getElem?_eq_getElem h0
  · refine ⟨_, ((k * (l.length - 1) % 4 : Nat) : α) / 4, ?_, by positivity, by rw [div_le_one (by norm_num)]; exact hr, by field_simp, rfl⟩
    unfold quartile
    simp only [hlen', hz, if_false]
    have e : (k * (l.length - 1) + 3) / 4 = k * (l.length - 1) / 4 + 1 := by omega
    simp only [e] at h1 ⊢
    have g0 : (l.insertionSort (· ≤ ·))[k * (l.length - 1) / 4]? = some (srt l)[k * (l.length - 1) / 4] := List.getElem?_eq_getElem h0
    have g1 : (l.insertionSort (· ≤ ·))[k * (l.length - 1) / 4 + 1]? = some (srt l)[k * (l.length - 1) / 4 + 1] := List.getElem?_eq_getElem h1
    rw [g0, g1]

/-- C92: at most the expected number of data lie below and above the quartile. -/
theorem quartile_counts (l : List α) (k : Nat) (hk : k ≤ 4) (q : α) (hq : quartile l k = some q) :
    4 * l.countP (fun x => decide (x < q)) ≤ k * (l.length - 1) + 3 ∧
    4 * l.countP (fun x => decide (q < x)) ≤ (4 - k) * (l.length - 1) + 3 := by
  have hl : l ≠ [] := by
    rintro rfl
    unfold quartile at hq
    simp at hq
  obtain ⟨h0, h1, q', w, e, w0, w1, _, hq'⟩ := quartile_eq l hl k hk
  rw [hq] at e
  simp only [Option.some.injEq] at e
  subst e
  have hle : (srt l)[k * (l.length - 1) / 4] ≤ (srt l)[(k * (l.length - 1) + 3) / 4] := le_getElem (srt_sorted l) (by omega) h1
  have hlo : (srt l)[k * (l.length - 1) / 4] ≤ q := by
    rw [hq']; nlinarith [mul_nonneg (sub_nonneg.2 hle) w0]
  have hhi : q ≤ (srt l)[(k * (l.length - 1) + 3) / 4] := by
    rw [hq']
    have := mul_le_mul_of_nonneg_left w1 (sub_nonneg.2 hle)
    linarith
  have a := (le_kth_iff l q h1).1 hhi
  have b := (kth_le_iff l q h0).1 hlo
  have c := List.length_eq_countP_add_countP (fun x => decide (x ≤ q)) (l := l)
  have e : l.countP (fun x => decide (q < x)) = l.countP (fun x => decide ¬(decide (x ≤ q)) = true) := by
    congr 1; funext x; simp
  have hk4 : (4 - k) * (l.length - 1) = 4 * (l.length - 1) - k * (l.length - 1) := Nat.sub_mul _ _ _
  have hb : k * (l.length - 1) ≤ 4 * (l.length - 1) := Nat.mul_le_mul_right _ hk
  have hpos := List.length_pos_of_ne_nil hl
  constructor <;> omega

example : quartile ([10, 20, 30, 40] : List ℚ) 1 = some (35/2) := by decide +kernel

/-- Quartiles of scaled and shifted data; a negative factor exchanges them. -/
theorem quartile_affine (l : List α) (hl : l ≠ []) (k : Nat) (hk : k ≤ 4) (s c : α) :
    quartile (l.map (fun x => s * x + c)) k =
      if 0 ≤ s then (quartile l k).map (fun x => s * x + c) else (quartile l (4 - k)).map (fun x => s * x + c) := by
  have hpos := List.length_pos_of_ne_nil hl
  have hlen := srt_length l
  have hk4 : (4 - k) * (l.length - 1) = 4 * (l.length - 1) - k * (l.length - 1) := Nat.sub_mul _ _ _
  have hb : k * (l.length - 1) ≤ 4 * (l.length - 1) := Nat.mul_le_mul_right _ hk
  obtain ⟨g0, g1, q', w', e', _, _, hw', hq'⟩ := quartile_eq (l.map (fun x => s * x + c)) (by simpa using hl) k hk
  simp only [List.length_map] at g0 g1 hw' hq'
  split
  · rename_i hs
    have hsrt : srt (l.map (fun x => s * x + c)) = (srt l).map (fun x => s * x + c) := by
      apply List.Perm.eq_of_pairwise' (r := (· ≤ ·)) (srt_sorted _)
      · rw [List.pairwise_map]
        exact (srt_sorted l).imp (fun h => by have := mul_le_mul_of_nonneg_left h hs; linarith)
      · exact (srt_perm _).trans ((srt_perm l).map _).symm
    obtain ⟨h0, h1, q, w, e, _, _, hw, hq⟩ := quartile_eq l hl k hk
    rw [e, e', Option.map_some, hq, hq']
    simp only [hsrt, List.getElem_map]
    have : w' = w := by
      have h4 : (4 : α) ≠ 0 := by norm_num
      exact mul_right_cancel₀ h4 (hw'.trans hw.symm)
    rw [this]
    congr 1; ring
  · rename_i hs
    have hs' : s ≤ 0 := le_of_lt (not_le.1 hs)
    have hsrt : srt (l.map (fun x => s * x + c)) = ((srt l).map (fun x => s * x + c)).reverse := by
      apply List.Perm.eq_of_pairwise' (r := (· ≤ ·)) (srt_sorted _)
      · rw [List.pairwise_reverse, List.pairwise_map]
        exact (srt_sorted l).imp (fun h => by have := mul_le_mul_of_nonpos_left h hs'; linarith)
      · exact (srt_perm _).trans (((srt_perm l).map _).symm.trans (List.reverse_perm _).symm)
    obtain ⟨h0, h1, q, w, e, _, _, hw, hq⟩ := quartile_eq l hl (4 - k) (by omega)
    rw [e, e', Option.map_some, hq, hq']
    simp only [hsrt, List.getElem_reverse, List.getElem_map, List.length_map, hlen]
    have i1 : l.length - 1 - k * (l.length - 1) / 4 = ((4 - k) * (l.length - 1) + 3) / 4 := by omega
    have i2 : l.length - 1 - (k * (l.length - 1) + 3) / 4 = (4 - k) * (l.length - 1) / 4 := by omega
    simp only [i1, i2]
    have h4 : (4 : α) ≠ 0 := by norm_num
    by_cases hz : k * (l.length - 1) % 4 = 0
    · have hz' : (4 - k) * (l.length - 1) % 4 = 0 := by omega
      rw [hz] at hw'
      rw [hz'] at hw
      have : w' = 0 := by simpa using hw'
      have : w = 0 := by simpa using hw
      have i3 : ((4 - k) * (l.length - 1) + 3) / 4 = (4 - k) * (l.length - 1) / 4 := by omega
      simp only [i3]
      simp [*]
    · have hz' : (4 - k) * (l.length - 1) % 4 + k * (l.length - 1) % 4 = 4 := by omega
      have hsum : w + w' = 1 := by
        have : (w + w') * 4 = 1 * 4 := by
          rw [add_mul, hw, hw']
          have := congrArg (Nat.cast (R := α)) hz'
          push_cast at this
          linarith
        exact mul_right_cancel₀ h4 this
      have : w' = 1 - w := by linarith
      rw [this]
      congr 1; ring

/-- C92: the interquartile range of nonempty data exists, is nonnegative, does not depend on the order of the data, and is scaled by the
size of the factor when the data are scaled and shifted. -/
theorem iqr_spec (nrm : α) (hn : 0 < nrm) (l : List α) (hl : l ≠ []) (sc : Bool) (s c : α) :
    (∃ r, iqr nrm l sc = some r ∧ 0 ≤ r) ∧ (∀ l', l.Perm l' → iqr nrm l' sc = iqr nrm l sc) ∧
    iqr nrm (l.map (fun x => s * x + c)) sc = (iqr nrm l sc).map (fun r => |s| * r) := by
  obtain ⟨h0, h1, q1, w, e1, _, w1, hw, hq1⟩ := quartile_eq l hl 1 (by omega)
  obtain ⟨g0, g1, q3, v, e3, v0, _, hv, hq3⟩ := quartile_eq l hl 3 (by omega)
  have ho : q1 ≤ q3 := by
    have hle : (srt l)[1 * (l.length - 1) / 4] ≤ (srt l)[(1 * (l.length - 1) + 3) / 4] := le_getElem (srt_sorted l) (by omega) h1
    have hle3 : (srt l)[3 * (l.length - 1) / 4] ≤ (srt l)[(3 * (l.length - 1) + 3) / 4] := le_getElem (srt_sorted l) (by omega) g1
    have a1 : q1 ≤ (srt l)[(1 * (l.length - 1) + 3) / 4] := by
      rw [hq1]
      have := mul_le_mul_of_nonneg_left w1 (sub_nonneg.2 hle)
      linarith
    have a3 : (srt l)[3 * (l.length - 1) / 4] ≤ q3 := by
      rw [hq3]
      have := mul_nonneg (sub_nonneg.2 hle3) v0
      linarith
    have hmid : (1 * (l.length - 1) + 3) / 4 ≤ 3 * (l.length - 1) / 4 ∨ l.length = 2 := by omega
    rcases hmid with hmid | h2
    · have := le_getElem (srt_sorted l) hmid g0
      linarith
    · -- two values: both quartiles are in the only gap
      simp only [h2] at hq1 hq3 hle hle3 hw hv
      norm_num at hq1 hq3 hle hle3 hw hv
      have hw' : w = 1 / 4 := by linarith
      have hv' : v = 3 / 4 := by linarith
      rw [hq1, hq3, hw', hv']
      linarith
  have hperm : ∀ l' k, l.Perm l' → quartile l' k = quartile l k := by
    intro l' k hp
    have : l'.insertionSort (· ≤ ·) = l.insertionSort (· ≤ ·) := srt_eq_of_perm hp.symm
    unfold quartile
    rw [this]
  refine ⟨?_, ?_, ?_⟩
  · unfold iqr
    rw [e3, e1]
    cases sc
    · exact ⟨_, rfl, by linarith⟩
    · exact ⟨_, rfl, div_nonneg (by linarith) hn.le⟩
  · intro l' hp
    unfold iqr
    rw [hperm l' 3 hp, hperm l' 1 hp]
  · unfold iqr
    rw [quartile_affine l hl 3 (by omega), quartile_affine l hl 1 (by omega)]
    by_cases hs : 0 ≤ s
    · simp only [hs, if_true]
      rw [e3, e1]
      cases sc
      · simp only [Option.map_some, Bool.false_eq_true, if_false, abs_of_nonneg hs]; congr 1; ring
      · simp only [Option.map_some, if_true, abs_of_nonneg hs]; congr 1; ring
    · have : |s| = -s := abs_of_neg (not_le.1 hs)
      simp only [hs, if_false, Nat.reduceSub]
      rw [e3, e1]
      cases sc
      · simp only [Option.map_some, Bool.false_eq_true, if_false, this]; congr 1; ring
      · simp only [Option.map_some, if_true, this]; congr 1; ring

example : iqr (1 : ℚ) [1, 2, 3, 4, 100] false = some 2 := by decide +kernel

/-- C92 (robustness): if at least three quarters of the data lie on each side of the bounds, the range is at most `b - a`. -/
theorem iqr_robust (l : List α) (a b : α) (ha : 4 * l.countP (fun x => decide (x < a)) + 4 ≤ l.length)
    (hb : 4 * l.countP (fun x => decide (b < x)) + 4 ≤ l.length) :
    ∃ q1 q3, quartile l 1 = some q1 ∧ quartile l 3 = some q3 ∧ a ≤ q1 ∧ q3 ≤ b ∧ iqr 1 l false = some (q3 - q1) ∧ q3 - q1 ≤ b - a := by
  have hl : l ≠ [] := by rintro rfl; simp at ha
  obtain ⟨h0, h1, q1, w, e1, w0, w1, _, hq1⟩ := quartile_eq l hl 1 (by omega)
  obtain ⟨g0, g1, q3, v, e3, v0, v1, _, hq3⟩ := quartile_eq l hl 3 (by omega)
  have hle : (srt l)[1 * (l.length - 1) / 4] ≤ (srt l)[(1 * (l.length - 1) + 3) / 4] := le_getElem (srt_sorted l) (by omega) h1
  have hle3 : (srt l)[3 * (l.length - 1) / 4] ≤ (srt l)[(3 * (l.length - 1) + 3) / 4] := le_getElem (srt_sorted l) (by omega) g1
  have a1 : a ≤ q1 := by
    have := (le_kth_iff l a h0).2 (by omega)
    have := mul_nonneg (sub_nonneg.2 hle) w0
    linarith
  have a3 : q3 ≤ b := by
    have c := List.length_eq_countP_add_countP (fun x => decide (x ≤ b)) (l := l)
    have e : l.countP (fun x => decide (b < x)) = l.countP (fun x => decide ¬(decide (x ≤ b)) = true) := by
      congr 1; funext x; simp
    have := (kth_le_iff l b g1).2 (by omega)
    have := mul_le_mul_of_nonneg_left v1 (sub_nonneg.2 hle3)
    linarith
  refine ⟨q1, q3, e1, e3, a1, a3, ?_, by linarith⟩
  unfold iqr
  rw [e3, e1]
  simp

example : ∃ r, iqr (1 : ℚ) [-1000, 1, 2, 3, 4, 5, 6, 1000] false = some r ∧ r ≤ 5 := by
  obtain ⟨q1, q3, _, _, _, _, h, h'⟩ := iqr_robust ([-1000, 1, 2, 3, 4, 5, 6, 1000] : List ℚ) 1 6 (by decide +kernel) (by decide +kernel)
  exact ⟨_, h, by linarith⟩

end Verif.Stats
