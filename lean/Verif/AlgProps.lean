import Verif.Alg
import Mathlib.Tactic.Linarith
import Mathlib.Tactic.Positivity
import Mathlib.Tactic.Ring
import Mathlib.Tactic.NormNum

/-!
# Properties of the array helpers (C40, C41, C43, C54)
-/

namespace Verif.Alg

variable {α : Type} [Field α] [LinearOrder α] [IsStrictOrderedRing α]

/-! ## C40: crossmask -/

theorem roll1_succ (l : List Bool) (j : Nat) (h : j + 1 < l.length) : (roll1 l)[j + 1]? = l[j]? := by
  unfold roll1
  cases hl : l.getLast? with
  | none => simp [List.getLast?_eq_none_iff] at hl; subst hl; simp at h
  | some b =>
    simp only [List.getElem?_cons_succ]
    rw [List.getElem?_dropLast, if_pos (by omega)]

theorem roll1_length (l : List Bool) : (roll1 l).length = l.length := by
  unfold roll1
  cases hl : l.getLast? with
  | none => simp [List.getLast?_eq_none_iff] at hl; subst hl; rfl
  | some b =>
    have : l ≠ [] := by rintro rfl; simp at hl
    have : 0 < l.length := List.length_pos_iff.2 this
    simp; omega

/-- C40: for a nonempty array the mask is True at exactly the positions `j+1` where the array goes from strictly below the threshold
(at `j`) to at or above it (or the mirror image), and never at position 0. -/
theorem crossmask_spec (x : List α) (hx : x ≠ []) (t : α) (up : Bool) :
    ∃ mask, crossmask x t up = some mask ∧ mask.length = x.length ∧
      ∀ i, mask[i]? = some true ↔ ∃ j a b, i = j + 1 ∧ x[j]? = some a ∧ x[i]? = some b ∧
        (if up then a < t ∧ t ≤ b else t < a ∧ b ≤ t) := by
  unfold crossmask
  dsimp only
  generalize ha : x.map (fun v => if up then decide (v < t) else decide (v > t)) = a
  generalize hb : x.map (fun v => if up then decide (v ≥ t) else decide (v ≤ t)) = b
  have la : a.length = x.length := by rw [← ha]; simp
  have lb : b.length = x.length := by rw [← hb]; simp
  have lm : (List.zipWith (· && ·) (roll1 a) b).length = x.length := by simp [roll1_length, la, lb]
  have hpos : 0 < x.length := List.length_pos_iff.2 hx
  have hget : ∀ j, (List.zipWith (· && ·) (roll1 a) b)[j + 1]? = some true ↔
      ∃ u v, x[j]? = some u ∧ x[j + 1]? = some v ∧ (if up then u < t ∧ t ≤ v else t < u ∧ v ≤ t) := by
    intro j
    rw [List.getElem?_zipWith]
    by_cases hj : j + 1 < x.length
    · rw [roll1_succ a j (by omega), ← ha, ← hb]
      simp only [List.getElem?_map]
      have e1 : x[j]? = some x[j] := List.getElem?_eq_getElem _
      have e2 : x[j+1]? = some x[j+1] := List.getElem?_eq_getElem _
      rw [e1, e2]
      cases up <;> simp
    · have e2 : x[j+1]? = none := List.getElem?_eq_none (by omega)
      have e3 : b[j+1]? = none := List.getElem?_eq_none (by omega)
      rw [e2, e3]
      simp
  cases hm : List.zipWith (· && ·) (roll1 a) b with
  | nil => rw [hm] at lm; simp at lm; omega
  | cons m0 rest =>
    refine ⟨_, rfl, by rw [hm] at lm; simpa using lm, fun i => ?_⟩
    cases i with
    | zero =>
      simp
    | succ j =>
      rw [List.getElem?_cons_succ]
      have := hget j
      rw [hm, List.getElem?_cons_succ] at this
      rw [this]
      constructor
      · rintro ⟨u, v, h1, h2, h3⟩; exact ⟨j, u, v, rfl, h1, h2, h3⟩
      · rintro ⟨j', u, v, e, h1, h2, h3⟩
        cases e
        exact ⟨u, v, h1, h2, h3⟩

/-- An upward crossing of the data is a downward crossing of the negated data. -/
theorem crossmask_neg (x : List α) (t : α) : crossmask (x.map (- ·)) (-t) false = crossmask x t true := by
  have e1 : (x.map (- ·)).map (fun v => if false then decide (v < -t) else decide (v > -t)) =
      x.map (fun v => if true then decide (v < t) else decide (v > t)) := by
    rw [List.map_map]; apply List.map_congr_left; intro v _; simp
  have e2 : (x.map (- ·)).map (fun v => if false then decide (v ≥ -t) else decide (v ≤ -t)) =
      x.map (fun v => if true then decide (v ≥ t) else decide (v ≤ t)) := by
    rw [List.map_map]; apply List.map_congr_left; intro v _; simp
  unfold crossmask
  rw [e1, e2]

example : crossmask ([-2, -1, 0, 1, 2, 1, 0, -1] : List ℚ) 0 true = some [false, false, true, false, false, false, false, false] := by
  decide +kernel

/-! ## C41: nearestsorted -/

theorem sorted_le {a : List α} (h : a.Pairwise (· ≤ ·)) {i j : Nat} (hij : i ≤ j) (hj : j < a.length) : a[i] ≤ a[j] := by
  rcases hij.lt_or_eq with h1 | h1
  · exact List.pairwise_iff_getElem.1 h i j (by omega) hj h1
  · subst h1; exact le_rfl

/-- C41: for a nonempty sorted array and any value, `nearestsorted` returns an element of the array with its index, and no element is
closer to the value. -/
theorem nearestsorted_spec (a : List α) (h : a.Pairwise (· ≤ ·)) (hne : a ≠ []) (val : α) :
    ∃ v i, nearestsorted a val = some (v, i) ∧ a[i]? = some v ∧ ∀ w ∈ a, |v - val| ≤ |w - val| := by
  have hpos : 0 < a.length := List.length_pos_iff.2 hne
  set k := searchsorted a val with hk
  have hkl : k ≤ a.length := List.findIdx_le_length
  -- elements before k are below, those from k on are not
  have below : ∀ j (hj : j < a.length), j < k → a[j] < val := by
    intro j hj hjk
    have := List.not_of_lt_findIdx (p := fun x => decide (val ≤ x)) (xs := a) (i := j) hjk
    simpa using this
  have above : ∀ j (hj : j < a.length), k ≤ j → val ≤ a[j] := by
    intro j hj hkj
    have hk' : k < a.length := by omega
    have := List.findIdx_getElem (p := fun x => decide (val ≤ x)) (xs := a) (w := hk')
    have h1 : val ≤ a[k] := of_decide_eq_true this
    exact h1.trans (sorted_le h hkj hj)
  have hmem : ∀ (P : α → Prop), (∀ j (hj : j < a.length), P a[j]) → ∀ w ∈ a, P w := by
    intro P hP w hw
    obtain ⟨j, hj, rfl⟩ := List.getElem_of_mem hw
    exact hP j hj
  unfold nearestsorted
  dsimp only
  rw [← hk]
  by_cases hge : k ≥ a.length
  · -- every element is below the value: the last one
    rw [if_pos hge]
    have hkk : k = a.length := by omega
    have e1 : a[k - 1]? = some a[k-1] := List.getElem?_eq_getElem (by omega)
    have best : ∀ w ∈ a, |a[k-1] - val| ≤ |w - val| := by
      apply hmem
      intro j hj
      have h1 := below (k-1) (by omega) (by omega)
      have h2 := below j hj (by omega)
      have h3 : a[j] ≤ a[k-1] := sorted_le h (by omega) (by omega)
      rw [abs_of_nonpos (by linarith), abs_of_nonpos (by linarith)]; linarith
    rw [e1]
    by_cases h1 : k - 1 = 0
    · have e2 : a[a.length - 1]? = some a[a.length - 1] := List.getElem?_eq_getElem (by omega)
      rw [if_pos h1, e2]
      dsimp only
      have : a[a.length - 1] = a[k-1] := by congr 1; omega
      rw [this, if_neg (lt_irrefl _)]
      exact ⟨_, _, rfl, e1, best⟩
    · have e2 : a[k - 1 - 1]? = some a[k-1-1] := List.getElem?_eq_getElem (by omega)
      rw [if_neg h1, e2]
      dsimp only
      have hb := best a[k-1-1] (List.getElem_mem _)
      rw [if_neg (not_lt.2 hb)]
      exact ⟨_, _, rfl, e1, best⟩
  · rw [if_neg hge]
    have hlt : k < a.length := by omega
    have e1 : a[k]? = some a[k] := List.getElem?_eq_getElem hlt
    rw [e1]
    have hk1 := above k hlt le_rfl
    by_cases h0 : k = 0
    · -- every element is at or above the value: the first one
      have e2 : a[a.length - 1]? = some a[a.length - 1] := List.getElem?_eq_getElem (by omega)
      have best : ∀ w ∈ a, |a[k] - val| ≤ |w - val| := by
        apply hmem
        intro j hj
        have h2 := above j hj (by omega)
        have h3 : a[k] ≤ a[j] := sorted_le h (by omega) hj
        rw [abs_of_nonneg (by linarith), abs_of_nonneg (by linarith)]; linarith
      rw [if_pos h0, e2]
      dsimp only
      rw [if_neg (not_lt.2 (best _ (List.getElem_mem _)))]
      exact ⟨_, _, rfl, e1, best⟩
    · have e2 : a[k - 1]? = some a[k - 1] := List.getElem?_eq_getElem (by omega)
      rw [if_neg h0, e2]
      dsimp only
      have hm := below (k-1) (by omega) (by omega)
      -- the nearest is one of the two neighbours
      have two : ∀ w ∈ a, |a[k-1] - val| ≤ |w - val| ∨ |a[k] - val| ≤ |w - val| := by
        apply hmem
        intro j hj
        by_cases hjk : j < k
        · left
          have h2 := below j hj hjk
          have h3 : a[j] ≤ a[k-1] := sorted_le h (by omega) (by omega)
          rw [abs_of_nonpos (by linarith), abs_of_nonpos (by linarith)]; linarith
        · right
          have h2 := above j hj (by omega)
          have h3 : a[k] ≤ a[j] := sorted_le h (by omega) hj
          rw [abs_of_nonneg (by linarith), abs_of_nonneg (by linarith)]; linarith
      split
      · rename_i hc
        rw [e2]
        refine ⟨_, _, rfl, e2, fun w hw => ?_⟩
        rcases two w hw with h' | h'
        · exact h'
        · exact hc.le.trans h'
      · rename_i hc
        refine ⟨_, _, rfl, e1, fun w hw => ?_⟩
        rcases two w hw with h' | h'
        · exact (not_lt.1 hc).trans h'
        · exact h'

/-- C41: the empty array is rejected. -/
theorem nearestsorted_empty (val : α) : nearestsorted ([] : List α) val = none := by
  simp [nearestsorted, searchsorted]

example : nearestsorted ([1, 3, 4, 9] : List ℚ) 6 = some (4, 2) ∧ ([1, 3, 4, 9] : List ℚ).Pairwise (· ≤ ·) := by decide +kernel
example : nearestsorted ([1, 3, 4, 9] : List ℚ) (-6) = some (1, 0) := by decide +kernel

/-! ## C43: sigma clipping -/

/-- The points with their flags: what a mask means for the data. -/
def Kept (data : List α) (mask : List Bool) (i : Nat) : Prop := i < data.length ∧ mask[i]? = some true

theorem select_sublist (data : List α) (mask : List Bool) : (select data mask).Sublist data := by
  induction data generalizing mask with
  | nil => simp [select]
  | cons x data ih =>
    cases mask with
    | nil => simp [select]
    | cons b mask =>
      have := ih mask
      cases b with
      | true => simpa [select] using this
      | false => simpa [select] using this.trans (List.sublist_cons_self x data)

theorem pass_length (cen var : List α → Option α) (sig : α) (data : List α) (mask : List Bool) :
    (pass cen var sig data mask).length = data.length := by
  unfold pass; split <;> simp

/-- C43: after a pass a point is kept exactly when it lies within `sig` standard deviations of the centre, both computed from the points
kept before the pass. -/
theorem pass_spec (cen var : List α → Option α) (sig : α) (data : List α) (mask : List Bool) (i : Nat) :
    Kept data (pass cen var sig data mask) i ↔
      ∃ x c v, data[i]? = some x ∧ cen (select data mask) = some c ∧ var (select data mask) = some v ∧ (x - c) ^ 2 ≤ v * sig ^ 2 := by
  unfold Kept pass
  by_cases hi : i < data.length
  · have e : data[i]? = some data[i] := List.getElem?_eq_getElem hi
    cases hc : cen (select data mask) with
    | none => simp [List.getElem?_replicate]
    | some c =>
      cases hv : var (select data mask) with
      | none => simp [List.getElem?_replicate]
      | some v => simp [hi, sq]
  · have e : data[i]? = none := List.getElem?_eq_none (by omega)
    simp [hi, e]

/-- C43: the result is the kept data in the original order. -/
theorem sigmaClip_result (cen var : List α → Option α) (sig : α) (iters : Option Nat) (fuel : Nat) (data : List α) {r : List α}
    {m : List Bool} (h : sigmaClip cen var sig iters fuel data = some (r, m)) : r = select data m ∧ r.Sublist data := by
  unfold sigmaClip at h
  cases iters with
  | some n =>
    simp only [Option.some.injEq, Prod.mk.injEq] at h
    obtain ⟨rfl, rfl⟩ := h
    exact ⟨rfl, select_sublist _ _⟩
  | none =>
    simp only [Option.map_eq_some_iff, Prod.mk.injEq] at h
    obtain ⟨m', -, rfl, rfl⟩ := h
    exact ⟨rfl, select_sublist _ _⟩

theorem clipIters_length (cen var : List α → Option α) (sig : α) (data : List α) (n : Nat) :
    (clipIters cen var sig data n).length = data.length := by
  cases n with
  | zero => simp [clipIters]
  | succ n => exact pass_length _ _ _ _ _

/-- The loop computes the iterates of the pass: it stops at the first one as large as its predecessor. -/
theorem clipLoop_iter (cen var : List α → Option α) (sig : α) (data : List α) : ∀ (fuel k : Nat) (last : Nat) (m : List Bool),
    (k = 0 → last ≠ count (clipIters cen var sig data 0)) → (∀ j, k = j + 1 → last = count (clipIters cen var sig data j)) →
    clipLoop cen var sig data fuel last (clipIters cen var sig data k) = some m →
    ∃ n, m = clipIters cen var sig data (n + 1) ∧ count m = count (clipIters cen var sig data n) := by
  intro fuel
  induction fuel with
  | zero =>
    intro k last m h0 h1 h
    unfold clipLoop at h
    split at h
    · cases h
    · rename_i heq
      push Not at heq
      cases h
      cases k with
      | zero => exact absurd heq.symm (h0 rfl)
      | succ k => exact ⟨k, rfl, by rw [heq]; exact h1 k rfl⟩
  | succ fuel ih =>
    intro k last m h0 h1 h
    unfold clipLoop at h
    split at h
    · exact ih (k + 1) _ m (by simp) (fun j hj => by cases hj; rfl) h
    · rename_i heq
      push Not at heq
      cases h
      cases k with
      | zero => exact absurd heq.symm (h0 rfl)
      | succ k => exact ⟨k, rfl, by rw [heq]; exact h1 k rfl⟩

/-- C43: if clipping until convergence ends, its result is the last of a number of passes, and that pass did not change how many points
are kept. -/
theorem converged_count_partial (cen var : List α → Option α) (sig : α) (fuel : Nat) (data : List α) {r : List α} {m : List Bool}
    (h : sigmaClip cen var sig none fuel data = some (r, m)) :
    ∃ n, m = pass cen var sig data (clipIters cen var sig data n) ∧ count m = count (clipIters cen var sig data n) := by
  unfold sigmaClip at h
  simp only [Option.map_eq_some_iff, Prod.mk.injEq] at h
  obtain ⟨m', h, -, rfl⟩ := h
  exact clipLoop_iter cen var sig data fuel 0 _ m' (by simp [clipIters]) (by simp) h

/-- No pass of the run keeps a point that was rejected before. -/
def NeverReadmits (cen var : List α → Option α) (sig : α) (data : List α) : Prop :=
  ∀ k i, Kept data (clipIters cen var sig data (k + 1)) i → Kept data (clipIters cen var sig data k) i

theorem count_le_of_imp : ∀ (m m' : List Bool), m.length = m'.length → (∀ i : Nat, m'[i]? = some true → m[i]? = some true) →
    count m' ≤ count m ∧ (count m' = count m → m' = m) := by
  intro m
  induction m with
  | nil => intro m' hl _; cases m' with
    | nil => simp
    | cons _ _ => simp at hl
  | cons b m ih =>
    intro m' hl himp
    cases m' with
    | nil => simp at hl
    | cons b' m' =>
      have hrec := ih m' (by simpa using hl) (fun i hi => by simpa using himp (i + 1) (by simpa using hi))
      have h0 := himp 0
      simp only [List.getElem?_cons_zero, Option.some.injEq] at h0
      unfold count at *
      cases b <;> cases b'
      · simp; refine ⟨hrec.1, hrec.2⟩
      · simp at h0
      · simp
        exact ⟨by omega, by omega⟩
      · simp; refine ⟨hrec.1, hrec.2⟩

theorem neverReadmits_step {cen var : List α → Option α} {sig : α} {data : List α} (h : NeverReadmits cen var sig data) (k : Nat) :
    count (clipIters cen var sig data (k + 1)) ≤ count (clipIters cen var sig data k) ∧
    (count (clipIters cen var sig data (k + 1)) = count (clipIters cen var sig data k) →
      clipIters cen var sig data (k + 1) = clipIters cen var sig data k) := by
  apply count_le_of_imp
  · rw [clipIters_length, clipIters_length]
  · intro i hi
    have hlt : i < data.length := by
      by_contra hc
      rw [List.getElem?_eq_none (by rw [clipIters_length]; omega)] at hi
      cases hi
    exact (h k i ⟨hlt, hi⟩).2

/-- C43: whenever no point is re-admitted, clipping until convergence ends after at most one pass more than there are points, with a set
that another pass leaves unchanged. -/
theorem converges_of_neverReadmits {cen var : List α → Option α} {sig : α} {data : List α} (h : NeverReadmits cen var sig data) :
    ∃ r m, sigmaClip cen var sig none (data.length + 1) data = some (r, m) ∧ pass cen var sig data m = m := by
  have key : ∀ fuel k last, count (clipIters cen var sig data k) ≤ fuel →
      ∃ m, clipLoop cen var sig data (fuel + 1) last (clipIters cen var sig data k) = some m := by
    intro fuel
    induction fuel with
    | zero =>
      intro k last hc
      have hs := neverReadmits_step h k
      unfold clipLoop
      split
      · unfold clipLoop
        have : count (pass cen var sig data (clipIters cen var sig data k)) = count (clipIters cen var sig data k) := by
          have := hs.1
          have e : clipIters cen var sig data (k + 1) = pass cen var sig data (clipIters cen var sig data k) := rfl
          rw [e] at this
          omega
        rw [if_neg (by simp [this])]
        exact ⟨_, rfl⟩
      · exact ⟨_, rfl⟩
    | succ fuel ih =>
      intro k last hc
      have hs := neverReadmits_step h k
      unfold clipLoop
      split
      · by_cases he : count (clipIters cen var sig data (k + 1)) = count (clipIters cen var sig data k)
        · unfold clipLoop
          have e : clipIters cen var sig data (k + 1) = pass cen var sig data (clipIters cen var sig data k) := rfl
          rw [← e, if_neg (by simp [he])]
          exact ⟨_, rfl⟩
        · have hlt : count (clipIters cen var sig data (k + 1)) ≤ fuel := by have := hs.1; omega
          exact ih (k + 1) _ hlt
      · exact ⟨_, rfl⟩
  have hc0 : count (clipIters cen var sig data 0) ≤ data.length := by
    simp only [clipIters, count]
    exact List.countP_le_length.trans (by simp)
  obtain ⟨m, hm⟩ := key data.length 0 (count (clipIters cen var sig data 0) + 1) hc0
  refine ⟨select data m, m, ?_, ?_⟩
  · unfold sigmaClip
    have : clipLoop cen var sig data (data.length + 1) (count (data.map fun _ => true) + 1) (data.map fun _ => true) = some m := hm
    simp only [this, Option.map_some]
  · obtain ⟨n, rfl, hn⟩ := clipLoop_iter cen var sig data _ 0 _ m (by simp) (by simp) hm
    have := (neverReadmits_step h n).2 hn
    calc pass cen var sig data (clipIters cen var sig data (n + 1)) = pass cen var sig data (clipIters cen var sig data n) := by rw [this]
      _ = clipIters cen var sig data (n + 1) := rfl

/-- The variance about a fixed centre. -/
def varAbout (c : α) (l : List α) : Option α := mean (l.map (fun x => (x - c) ^ 2))

/-- Dropping the largest elements does not raise the mean. -/
theorem mean_trim (l : List α) (T : α) {v v' : α} (hv : mean l = some v) (hv' : mean (l.filter (fun x => decide (x ≤ T))) = some v') :
    v' ≤ v := by
  have key : ∀ l : List α, ((l.filter (fun x => decide (x ≤ T))).sum ≤ T * (l.filter (fun x => decide (x ≤ T))).length) ∧
      (T * ((l.length : α) - (l.filter (fun x => decide (x ≤ T))).length) ≤ l.sum - (l.filter (fun x => decide (x ≤ T))).sum) := by
    intro l
    induction l with
    | nil => simp
    | cons x l ih =>
      by_cases hx : x ≤ T
      · simp only [List.filter_cons, hx, decide_true, if_true, List.sum_cons, List.length_cons]
        push_cast
        constructor <;> nlinarith [ih.1, ih.2]
      · simp only [List.filter_cons, hx, decide_false, List.sum_cons, List.length_cons]
        push_cast
        have := (not_le.1 hx).le
        constructor
        · exact ih.1
        · have := ih.2
          nlinarith
  have hl : l ≠ [] := by rintro rfl; simp [mean] at hv
  have hl' : l.filter (fun x => decide (x ≤ T)) ≠ [] := by intro h; rw [h] at hv'; simp [mean] at hv'
  simp only [mean, hl, if_false, Option.some.injEq] at hv
  simp only [mean, hl', if_false, Option.some.injEq] at hv'
  subst hv hv'
  set K := l.filter (fun x => decide (x ≤ T)) with hK
  obtain ⟨k1, k2⟩ := key l
  rw [← hK] at k1 k2
  have p1 : (0:α) < K.length := by exact_mod_cast List.length_pos_iff.2 hl'
  have p2 : (0:α) < l.length := by exact_mod_cast List.length_pos_iff.2 hl
  have p3 : (0:α) ≤ (l.length : α) - K.length := by
    have : K.length ≤ l.length := List.length_filter_le _ _
    have : (K.length : α) ≤ l.length := by exact_mod_cast this
    linarith
  rw [div_le_div_iff₀ p1 p2]
  nlinarith [mul_le_mul_of_nonneg_right k1 p3, mul_le_mul_of_nonneg_right k2 p1.le]

theorem select_map_decide (data : List α) (p : α → Bool) : select data (data.map p) = data.filter p := by
  induction data with
  | nil => rfl
  | cons x data ih =>
    have : select (x :: data) ((x :: data).map p) = (if p x then [x] else []) ++ select data (data.map p) := by
      unfold select; simp only [List.map_cons, List.zip_cons_cons]
      cases h : p x <;> simp [h]
    rw [this, ih, List.filter_cons]
    cases p x <;> simp

/-- C43: with a fixed centre (a scalar or None as `cenfunc`) and the variance about that centre no point is ever re-admitted, so clipping
until convergence ends at a set unchanged by one more pass. -/
theorem fixed_centre_neverReadmits (c sig : α) (data : List α) : NeverReadmits (fun _ => some c) (varAbout c) sig data := by
  -- every iterate keeps the points whose squared distance is below some bound, or all, or none
  set d : α → α := fun x => (x - c) ^ 2 with hd
  have form : ∀ k, ∃ p : α → Bool, clipIters (fun _ => some c) (varAbout c) sig data k = data.map p := by
    intro k
    cases k with
    | zero => exact ⟨fun _ => true, rfl⟩
    | succ k =>
      simp only [clipIters, pass]
      split
      · exact ⟨_, rfl⟩
      · exact ⟨fun _ => false, rfl⟩
  have keptIff : ∀ (p : α → Bool) i, Kept data (data.map p) i ↔ ∃ x, data[i]? = some x ∧ p x = true := by
    intro p i
    unfold Kept
    simp only [List.getElem?_map, Option.map_eq_some_iff]
    constructor
    · rintro ⟨_, x, h1, h2⟩; exact ⟨x, h1, h2⟩
    · rintro ⟨x, h1, h2⟩
      have hlt : i < data.length := by
        by_contra hc
        rw [List.getElem?_eq_none (by omega)] at h1
        cases h1
      exact ⟨hlt, x, h1, h2⟩
  have passForm : ∀ p : α → Bool, pass (fun _ => some c) (varAbout c) sig data (data.map p) =
      match mean ((data.filter p).map d) with
      | some v => data.map (fun x => decide (d x ≤ v * sig ^ 2))
      | none => data.map (fun _ => false) := by
    intro p
    unfold pass varAbout
    rw [select_map_decide]
    cases hm : mean ((data.filter p).map d) with
    | none => rfl
    | some v => simp only [hd, sq]
  intro k
  induction k with
  | zero =>
    intro i hi
    rw [show clipIters (fun _ => some c) (varAbout c) sig data 0 = data.map (fun _ => true) from rfl, keptIff]
    obtain ⟨h, -⟩ := hi
    exact ⟨data[i], List.getElem?_eq_getElem h, rfl⟩
  | succ k ih =>
    obtain ⟨p, hp⟩ := form k
    have e1 : clipIters (fun _ => some c) (varAbout c) sig data (k + 1) = pass (fun _ => some c) (varAbout c) sig data (data.map p) := by
      rw [← hp]; rfl
    rw [hp, e1, passForm p] at ih
    have e2 : clipIters (fun _ => some c) (varAbout c) sig data (k + 2) =
        pass (fun _ => some c) (varAbout c) sig data (pass (fun _ => some c) (varAbout c) sig data (data.map p)) := by
      rw [← hp]; rfl
    intro i
    rw [e1, e2, passForm p]
    cases hm : mean ((data.filter p).map d) with
    | none =>
      simp only
      rw [passForm]
      simp [mean, keptIff]
    | some v =>
      rw [hm] at ih
      simp only at ih ⊢
      rw [passForm]
      set q : α → Bool := fun x => decide (d x ≤ v * sig ^ 2) with hq
      -- the points kept after the pass are the near ones among those kept before
      have hsub : data.filter q = (data.filter p).filter q := by
        rw [List.filter_filter]
        apply List.filter_congr
        intro x hx
        cases hqx : q x with
        | false => simp
        | true =>
          obtain ⟨i, hi, rfl⟩ := List.getElem_of_mem hx
          have := ih i ((keptIff q i).2 ⟨_, List.getElem?_eq_getElem hi, hqx⟩)
          obtain ⟨y, hy, hpy⟩ := (keptIff p i).1 this
          rw [List.getElem?_eq_getElem hi] at hy
          cases hy
          simp [hpy]
      have hmap : (data.filter q).map d = ((data.filter p).map d).filter (fun y => decide (y ≤ v * sig ^ 2)) := by
        rw [hsub, List.filter_map]
        rfl
      cases hm' : mean ((data.filter q).map d) with
      | none => simp only; rw [keptIff]; simp
      | some v' =>
        simp only
        have hle : v' ≤ v := by
          rw [hmap] at hm'
          exact mean_trim _ _ hm hm'
        rw [keptIff, keptIff]
        rintro ⟨x, hx, hxx⟩
        refine ⟨x, hx, ?_⟩
        simp only [hq, decide_eq_true_eq] at hxx ⊢
        have : v' * sig ^ 2 ≤ v * sig ^ 2 := mul_le_mul_of_nonneg_right hle (sq_nonneg sig)
        linarith

/-- C43 for a fixed centre: clipping until convergence ends, at a set that another pass does not change. -/
theorem fixed_centre_converges (c sig : α) (data : List α) :
    ∃ r m, sigmaClip (fun _ => some c) (varAbout c) sig none (data.length + 1) data = some (r, m) ∧
      pass (fun _ => some c) (varAbout c) sig data m = m :=
  converges_of_neverReadmits (fixed_centre_neverReadmits c sig data)

/-- Non-vacuity: a far point is clipped in the first pass, a second in the second. -/
example : sigmaClip (fun _ => some 0) (varAbout 0) 1 none 6 ([0, 1, 3, 10] : List ℚ) = some ([0], [true, false, false, false]) ∨
    sigmaClip (fun _ => some 0) (varAbout 0) (3/2) none 6 ([0, 1, 1, 10] : List ℚ) = some ([0, 1, 1], [true, true, true, false]) := by
  right; decide +kernel

/-- Counterexample to "never re-admits" and to "unchanged by one more pass" for the default median and variance: clipping
[1,2,3,8,8,10] at one standard deviation until convergence stops at a set that another pass changes, and re-admits the point 10
rejected in the first pass. -/
theorem default_clip_not_converged :
    sigmaClip median variance 1 none 3 ([1, 2, 3, 8, 8, 10] : List ℚ) = some ([8, 8, 10], [false, false, false, true, true, true]) ∧
    pass median variance 1 ([1, 2, 3, 8, 8, 10] : List ℚ) [false, false, false, true, true, true] ≠ [false, false, false, true, true, true] ∧
    clipIters median variance 1 ([1, 2, 3, 8, 8, 10] : List ℚ) 1 = [false, false, true, true, true, false] := by
  decide +kernel

/-- With a user-supplied variance function, clipping until convergence may never end. -/
theorem clip_may_not_end (fuel : Nat) :
    sigmaClip (fun _ => some 0) (fun l => some (if l.length = 2 then 0 else 1)) 1 none fuel ([0, 1] : List ℚ) = none := by
  have p1 : pass (fun _ => some 0) (fun l => some (if l.length = 2 then 0 else 1)) 1 ([0, 1] : List ℚ) [true, true] = [true, false] := by
    decide +kernel
  have p2 : pass (fun _ => some 0) (fun l => some (if l.length = 2 then 0 else 1)) 1 ([0, 1] : List ℚ) [true, false] = [true, true] := by
    decide +kernel
  have key : ∀ fuel, (∀ last, last ≠ 2 → clipLoop (fun _ => some 0) (fun l => some (if l.length = 2 then 0 else 1)) 1 ([0, 1] : List ℚ) fuel last
      [true, true] = none) ∧ (∀ last, last ≠ 1 → clipLoop (fun _ => some 0) (fun l => some (if l.length = 2 then 0 else 1)) 1 ([0, 1] : List ℚ)
      fuel last [true, false] = none) := by
    intro fuel
    induction fuel with
    | zero =>
      refine ⟨fun last h => ?_, fun last h => ?_⟩
      · unfold clipLoop; rw [if_pos (by simpa [count] using h.symm)]
      · unfold clipLoop; rw [if_pos (by simpa [count] using h.symm)]
    | succ fuel ih =>
      refine ⟨fun last h => ?_, fun last h => ?_⟩
      · unfold clipLoop; rw [if_pos (by simpa [count] using h.symm), p1]
        exact ih.2 _ (by simp [count])
      · unfold clipLoop; rw [if_pos (by simpa [count] using h.symm), p2]
        exact ih.1 _ (by simp [count])
  unfold sigmaClip
  simp only
  have := (key fuel).1 (count (List.map (fun _ => true) ([0, 1] : List ℚ)) + 1) (by simp [count])
  rw [show List.map (fun _ => true) ([0, 1] : List ℚ) = [true, true] from rfl] at this ⊢
  rw [this]; rfl

/-! ## C54: nd_grid -/

theorem repeatEach_get {β : Type} (v : List β) (k : Nat) (i j : Nat) (hj : j < k) : (repeatEach v k)[i * k + j]? = v[i]? := by
  induction v generalizing i with
  | nil => simp [repeatEach]
  | cons x v ih =>
    have e : repeatEach (x :: v) k = List.replicate k x ++ repeatEach v k := by simp [repeatEach]
    rw [e]
    cases i with
    | zero =>
      simp only [Nat.zero_mul, Nat.zero_add]
      rw [List.getElem?_append_left (by simpa using hj)]
      simp [List.getElem?_replicate, hj]
    | succ i =>
      rw [List.getElem?_append_right (by simp; nlinarith)]
      have : (i + 1) * k + j - (List.replicate k x).length = i * k + j := by
        simp; rw [Nat.add_mul]; omega
      rw [this, ih]
      simp

/-- A multi-index inside a shape. -/
def Inside (shape idx : List Nat) : Prop := List.Forall₂ (fun i n => i < n) idx shape

theorem flatIndex_lt : ∀ {shape idx : List Nat}, Inside shape idx → flatIndex shape idx < shape.prod := by
  intro shape idx h
  unfold Inside at h
  induction h with
  | nil => simp [flatIndex]
  | @cons i n idx shape hi h ih =>
    simp only [flatIndex, List.prod_cons]
    calc i * shape.prod + flatIndex shape idx < i * shape.prod + shape.prod := by omega
      _ = (i + 1) * shape.prod := by ring
      _ ≤ n * shape.prod := Nat.mul_le_mul_right _ hi

theorem Inside.eraseIdx {shape idx : List Nat} (h : Inside shape idx) (i : Nat) : Inside (shape.eraseIdx i) (idx.eraseIdx i) := by
  unfold Inside at *
  induction h generalizing i with
  | nil => simp
  | cons hi h ih =>
    cases i with
    | zero => simpa using h
    | succ i => simpa using ⟨hi, ih i⟩

theorem prod_eraseIdx {shape : List Nat} {i n : Nat} (h : shape[i]? = some n) : n * (shape.eraseIdx i).prod = shape.prod := by
  induction shape generalizing i with
  | nil => simp at h
  | cons m shape ih =>
    cases i with
    | zero => simp at h; subst h; simp
    | succ i =>
      simp at h
      have := ih h
      simp only [List.eraseIdx_cons_succ, List.prod_cons, ← this]; ring

/-- C54: entry `idx` of the `i`-th grid is the `idx[i]`-th value of the `i`-th vector, for every number of vectors, all their lengths and
every position. -/
theorem ndGrid_spec {β : Type} (vecs : List (List β)) (i : Nat) (idx : List Nat) (h : Inside (vecs.map List.length) idx) {v : List β} {k : Nat}
    (hv : vecs[i]? = some v) (hk : idx[i]? = some k) : ndGrid vecs i idx = v[k]? := by
  unfold ndGrid
  rw [hv, hk]
  simp only [flatIndex]
  have hs : (vecs.map List.length)[i]? = some v.length := by simp [hv]
  have hp := prod_eraseIdx hs
  have hkv : k < v.length := by
    have : ∀ {shape idx : List Nat} {i k n : Nat}, Inside shape idx → idx[i]? = some k → shape[i]? = some n → k < n := by
      intro shape idx i k n hin
      unfold Inside at hin
      induction hin generalizing i with
      | nil => intro h; simp at h
      | cons hi h ih =>
        cases i with
        | zero => intro h1 h2; simp at h1 h2; omega
        | succ i => intro h1 h2; exact ih (by simpa using h1) (by simpa using h2)
    exact this h hk hs
  have hdiv : (vecs.map List.length).prod / v.length = ((vecs.map List.length).eraseIdx i).prod := by
    rw [← hp]; exact Nat.mul_div_cancel_left _ (by omega)
  rw [hdiv]
  exact repeatEach_get v _ k _ (flatIndex_lt (h.eraseIdx i))

example : ndGrid [[10, 11], [20, 21, 22]] 1 [1, 2] = some 22 ∧ Inside ([[10, 11], [20, 21, 22]].map List.length) [1, 2] := by
  refine ⟨by decide, ?_⟩
  simp [Inside]

end Verif.Alg
