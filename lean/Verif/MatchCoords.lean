import Mathlib.Analysis.SpecialFunctions.Pow.Real
import Mathlib.Data.List.Sort
import Mathlib.Data.Finset.Card
import Mathlib.Tactic.Linarith

/-!
# Matching catalogues (astropysics/coords/funcs.py 489-730)

`match_coords`, `match_nearest_coords` and `separation_matrix`, in exact real arithmetic.
-/

namespace Verif.MatchCoords

open Real Classical

abbrev Pt := ℝ × ℝ

/-- `np.hypot` of the coordinate differences. -/
noncomputable def sep (p q : Pt) : ℝ := √((p.1 - q.1) ^ 2 + (p.2 - q.2) ^ 2)

inductive Err
  | value | index
deriving DecidableEq, Repr

/-- funcs.py 578-586: `find_sep`, `np.hypot`, `matches = sep <= eps`; row `i` belongs to the `i`th point of the first set. -/
noncomputable def matrix (eps : ℝ) (c1 c2 : List Pt) : List (List Bool) :=
  c1.map (fun p => c2.map (fun q => decide (sep p q ≤ eps)))

/-- Column `j` of a matrix. -/
def column (m : List (List Bool)) (j : Nat) : List Bool := m.map (fun row => row.getD j false)

/-- `np.any(matches,axis=1)`. -/
def anyRows (m : List (List Bool)) : List Bool := m.map (fun row => row.any id)
/-- `np.any(matches,axis=0)` for `n` columns. -/
def anyCols (n : Nat) (m : List (List Bool)) : List Bool := (List.range n).map (fun j => (column m j).any id)
/-- `np.sum(matches,axis=1)`. -/
def sumRows (m : List (List Bool)) : List Nat := m.map (fun row => row.countP id)
/-- `np.sum(matches,axis=0)`. -/
def sumCols (n : Nat) (m : List (List Bool)) : List Nat := (List.range n).map (fun j => (column m j).countP id)

/-- Mode 'mask', funcs.py 588-589. -/
noncomputable def maskMode (eps : ℝ) (c1 c2 : List Pt) : List Bool × List Bool :=
  (anyRows (matrix eps c1 c2), anyCols c2.length (matrix eps c1 c2))

/-- Mode 'maskexcept', funcs.py 590-595. -/
noncomputable def maskExcept (eps : ℝ) (c1 c2 : List Pt) : Except Err (List Bool × List Bool) :=
  let s1 := sumRows (matrix eps c1 c2)
  let s2 := sumCols c2.length (matrix eps c1 c2)
  if s1.all (fun n => decide (n < 2)) && s2.all (fun n => decide (n < 2)) then
    .ok (s1.map (fun n => decide (n > 0)), s2.map (fun n => decide (n > 0)))
  else .error .value

/-- Mode 'maskwarn', funcs.py 596-604: the masks, and the indices that are warned about. -/
noncomputable def maskWarn (eps : ℝ) (c1 c2 : List Pt) : (List Bool × List Bool) × (List Nat × List Nat) :=
  let s1 := sumRows (matrix eps c1 c2)
  let s2 := sumCols c2.length (matrix eps c1 c2)
  ((s1.map (fun n => decide (n > 0)), s2.map (fun n => decide (n > 0))),
   ((List.range s1.length).filter (fun i => decide (s1.getD i 0 > 1)),
    (List.range s2.length).filter (fun j => decide (s2.getD j 0 > 1))))

/-- Mode 'count', funcs.py 605-606. -/
noncomputable def countMode (eps : ℝ) (c1 c2 : List Pt) : Nat × Nat :=
  ((anyRows (matrix eps c1 c2)).countP id, (anyCols c2.length (matrix eps c1 c2)).countP id)

/-- `np.where` of a two-dimensional array: the positions of the true elements in row-major order. -/
def whereTrue (n : Nat) (m : List (List Bool)) : List (Nat × Nat) :=
  (List.range m.length).flatMap (fun i =>
    ((List.range n).filter (fun j => (m.getD i []).getD j false)).map (fun j => (i, j)))

/-- Mode 'index', funcs.py 607-608. -/
noncomputable def indexMode (eps : ℝ) (c1 c2 : List Pt) : List Nat × List Nat :=
  let w := whereTrue c2.length (matrix eps c1 c2)
  (w.map (·.1), w.map (·.2))

/-- Mode 'match2D', funcs.py 609-610. -/
noncomputable def match2D (eps : ℝ) (c1 c2 : List Pt) : List (List Bool) :=
  (List.range c2.length).map (fun j => column (matrix eps c1 c2) j)

/-! ## Lemmas -/

theorem matrix_length (eps : ℝ) (c1 c2 : List Pt) : (matrix eps c1 c2).length = c1.length := by simp [matrix]

theorem matrix_row (eps : ℝ) (c1 c2 : List Pt) (i : Nat) (hi : i < c1.length) :
    (matrix eps c1 c2).getD i [] = c2.map (fun q => decide (sep c1[i] q ≤ eps)) := by
  simp [matrix, List.getD, hi]

theorem matrix_get (eps : ℝ) (c1 c2 : List Pt) (i j : Nat) (hi : i < c1.length) (hj : j < c2.length) :
    ((matrix eps c1 c2).getD i []).getD j false = decide (sep c1[i] c2[j] ≤ eps) := by
  rw [matrix_row eps c1 c2 i hi]
  simp [List.getD, hj]

theorem column_eq (eps : ℝ) (c1 c2 : List Pt) (j : Nat) (hj : j < c2.length) :
    column (matrix eps c1 c2) j = c1.map (fun p => decide (sep p c2[j] ≤ eps)) := by
  simp [column, matrix, List.getD, hj]

theorem any_iff_count (l : List Bool) : decide (l.countP id > 0) = l.any id := by
  rw [Bool.eq_iff_iff]
  simp [List.countP_pos_iff]

theorem rows_mask (m : List (List Bool)) : (sumRows m).map (fun n => decide (n > 0)) = anyRows m := by
  simp only [sumRows, anyRows, List.map_map]
  apply List.map_congr_left
  intro r _
  exact any_iff_count r

theorem cols_mask (n : Nat) (m : List (List Bool)) : (sumCols n m).map (fun n => decide (n > 0)) = anyCols n m := by
  simp only [sumCols, anyCols, List.map_map]
  apply List.map_congr_left
  intro r _
  exact any_iff_count _

/-- The number of points of `c` within `eps` of `p`. -/
noncomputable def near (eps : ℝ) (p : Pt) (c : List Pt) : Nat := c.countP (fun q => decide (sep p q ≤ eps))

theorem sep_comm (p q : Pt) : sep p q = sep q p := by
  unfold sep; congr 1; ring

theorem sumRows_eq (eps : ℝ) (c1 c2 : List Pt) : sumRows (matrix eps c1 c2) = c1.map (fun p => near eps p c2) := by
  simp [sumRows, matrix, near, List.countP_map, Function.comp_def]

theorem sumCols_eq (eps : ℝ) (c1 c2 : List Pt) :
    sumCols c2.length (matrix eps c1 c2) = c2.map (fun q => near eps q c1) := by
  apply List.ext_getElem
  · simp [sumCols]
  · intro j h1 h2
    have hj : j < c2.length := by simpa using h2
    simp only [sumCols, List.getElem_map, List.getElem_range, column_eq eps c1 c2 j hj, near, List.countP_map,
      Function.comp_def, id]
    congr 1
    funext p
    rw [sep_comm]

/-! ## The modes -/

/-- 'mask': one flag per point, true exactly if some point of the other set is within the tolerance. -/
theorem mask_spec (eps : ℝ) (c1 c2 : List Pt) :
    maskMode eps c1 c2 = (c1.map (fun p => decide (∃ q ∈ c2, sep p q ≤ eps)), c2.map (fun q => decide (∃ p ∈ c1, sep p q ≤ eps))) := by
  unfold maskMode
  rw [← rows_mask, ← cols_mask, sumRows_eq, sumCols_eq]
  simp only [List.map_map, Function.comp_def, near, gt_iff_lt, List.countP_pos_iff, decide_eq_true_eq]
  congr 1
  apply List.map_congr_left
  intro q _
  simp only [sep_comm q]

/-- 'maskexcept' returns the masks of 'mask' exactly if no point has two matches in the other set, and raises ValueError otherwise. -/
theorem maskExcept_spec (eps : ℝ) (c1 c2 : List Pt) :
    maskExcept eps c1 c2 =
      if (∀ p ∈ c1, near eps p c2 ≤ 1) ∧ (∀ q ∈ c2, near eps q c1 ≤ 1) then .ok (maskMode eps c1 c2) else .error .value := by
  unfold maskExcept maskMode
  simp only [rows_mask, cols_mask, sumRows_eq, sumCols_eq, List.all_map, Function.comp_def]
  have : ((c1.all fun x => decide (near eps x c2 < 2)) && c2.all fun x => decide (near eps x c1 < 2)) = true ↔
      (∀ p ∈ c1, near eps p c2 ≤ 1) ∧ (∀ q ∈ c2, near eps q c1 ≤ 1) := by
    simp only [Bool.and_eq_true, List.all_eq_true, decide_eq_true_eq, Nat.lt_succ_iff]
  by_cases h : (∀ p ∈ c1, near eps p c2 ≤ 1) ∧ (∀ q ∈ c2, near eps q c1 ≤ 1)
  · rw [if_pos (this.2 h), if_pos h, ← sumRows_eq, ← sumCols_eq, rows_mask, cols_mask]
  · rw [if_neg (fun hh => h (this.1 hh)), if_neg h]

/-- 'maskwarn' returns the masks of 'mask' and warns about exactly the points with several matches. -/
theorem maskWarn_spec (eps : ℝ) (c1 c2 : List Pt) :
    (maskWarn eps c1 c2).1 = maskMode eps c1 c2 ∧
    (∀ i, i ∈ (maskWarn eps c1 c2).2.1 ↔ ∃ h : i < c1.length, 2 ≤ near eps c1[i] c2) ∧
    (∀ j, j ∈ (maskWarn eps c1 c2).2.2 ↔ ∃ h : j < c2.length, 2 ≤ near eps c2[j] c1) := by
  unfold maskWarn maskMode
  refine ⟨by simp only [rows_mask, cols_mask], ?_, ?_⟩
  · intro i
    simp only [sumRows_eq, List.length_map, List.mem_filter, List.mem_range, decide_eq_true_eq]
    constructor
    · rintro ⟨h, h2⟩
      refine ⟨h, ?_⟩
      simpa [List.getD, h, Nat.succ_le_iff] using h2
    · rintro ⟨h, h2⟩
      refine ⟨h, ?_⟩
      simpa [List.getD, h, Nat.succ_le_iff] using h2
  · intro j
    simp only [sumCols_eq, List.length_map, List.mem_filter, List.mem_range, decide_eq_true_eq]
    constructor
    · rintro ⟨h, h2⟩
      refine ⟨h, ?_⟩
      simpa [List.getD, h, Nat.succ_le_iff] using h2
    · rintro ⟨h, h2⟩
      refine ⟨h, ?_⟩
      simpa [List.getD, h, Nat.succ_le_iff] using h2

/-- 'count': how many points of each set have a match. -/
theorem count_spec (eps : ℝ) (c1 c2 : List Pt) :
    countMode eps c1 c2 = (c1.countP (fun p => decide (∃ q ∈ c2, sep p q ≤ eps)),
      c2.countP (fun q => decide (∃ p ∈ c1, sep p q ≤ eps))) := by
  have h := mask_spec eps c1 c2
  unfold maskMode at h
  rw [Prod.mk.injEq] at h
  unfold countMode
  rw [h.1, h.2, List.countP_map, List.countP_map]
  rfl

/-- 'index': the two arrays have one length and list exactly the matching pairs, each pair once, in increasing order of the first
index and then the second. -/
theorem index_spec (eps : ℝ) (c1 c2 : List Pt) :
    (indexMode eps c1 c2).1.length = (indexMode eps c1 c2).2.length ∧
    ((indexMode eps c1 c2).1.zip (indexMode eps c1 c2).2).Pairwise (fun a b => a.1 < b.1 ∨ a.1 = b.1 ∧ a.2 < b.2) ∧
    ∀ i j, (i, j) ∈ (indexMode eps c1 c2).1.zip (indexMode eps c1 c2).2 ↔
      ∃ (hi : i < c1.length) (hj : j < c2.length), sep c1[i] c2[j] ≤ eps := by
  have hz : (indexMode eps c1 c2).1.zip (indexMode eps c1 c2).2 = whereTrue c2.length (matrix eps c1 c2) := by
    unfold indexMode
    simp only [List.zip_map', Prod.mk.eta, List.map_id']
  refine ⟨by simp [indexMode], ?_, ?_⟩
  · rw [hz]
    unfold whereTrue
    rw [List.pairwise_flatMap]
    constructor
    · intro i _
      rw [List.pairwise_map]
      refine ((List.pairwise_lt_range).filter _).imp ?_
      intro a b hab
      exact Or.inr ⟨rfl, hab⟩
    · refine (List.pairwise_lt_range).imp ?_
      intro a b hab x hx y hy
      simp only [List.mem_map] at hx hy
      obtain ⟨_, _, rfl⟩ := hx
      obtain ⟨_, _, rfl⟩ := hy
      exact Or.inl hab
  · intro i j
    rw [hz]
    unfold whereTrue
    simp only [matrix_length, List.mem_flatMap, List.mem_range, List.mem_map, List.mem_filter, Prod.mk.injEq]
    constructor
    · rintro ⟨a, ha, b, ⟨hb, hm⟩, rfl, rfl⟩
      rw [matrix_get eps c1 c2 a b ha hb] at hm
      exact ⟨ha, hb, by simpa using hm⟩
    · rintro ⟨hi, hj, hm⟩
      refine ⟨i, hi, j, ⟨hj, ?_⟩, rfl, rfl⟩
      rw [matrix_get eps c1 c2 i j hi hj]
      simpa using hm

/-- 'match2D' has a row per point of the *second* set: element `[j,i]` says whether the `i`th point of the first set matches the
`j`th of the second. -/
theorem match2D_transposed (eps : ℝ) (c1 c2 : List Pt) :
    match2D eps c1 c2 = c2.map (fun q => c1.map (fun p => decide (sep p q ≤ eps))) := by
  apply List.ext_getElem
  · simp [match2D]
  · intro j h1 h2
    have hj : j < c2.length := by simpa using h2
    simp [match2D, column_eq eps c1 c2 j hj]

/-- So the documented reading, `M[i,j]` for the `i`th point of the first set and the `j`th of the second, is right exactly if the
table is symmetric (in particular the two sets have one length). -/
theorem match2D_documented_iff (eps : ℝ) (c1 c2 : List Pt) :
    match2D eps c1 c2 = matrix eps c1 c2 ↔
      c1.length = c2.length ∧ ∀ i j (h1 : i < c1.length) (h2 : j < c2.length) (h3 : i < c2.length) (h4 : j < c1.length),
        (sep c1[i] c2[j] ≤ eps ↔ sep c1[j] c2[i] ≤ eps) := by
  rw [match2D_transposed]
  constructor
  · intro h
    have hl : c1.length = c2.length := by
      have := congrArg List.length h
      simpa [matrix] using this.symm
    refine ⟨hl, ?_⟩
    intro i j h1 h2 h3 h4
    have hh := congrArg (fun m => (m.getD i []).getD j false) h
    simp only [matrix_get eps c1 c2 i j h1 h2] at hh
    simp [List.getD, h3, h4] at hh
    exact hh.symm
  · rintro ⟨hl, h⟩
    unfold matrix
    apply List.ext_getElem
    · simp [hl]
    · intro i h1 h2
      simp only [List.getElem_map]
      simp only [List.length_map] at h1 h2
      apply List.ext_getElem
      · simp [hl]
      · intro j h3 h4
        simp only [List.length_map] at h3 h4
        simp only [List.getElem_map, decide_eq_decide]
        exact (h i j h2 h4 h1 h3).symm

/-- Two points against one: the documented shape (2,1) is delivered as (1,2). -/
theorem match2D_wrong : match2D 1 [(0, 0), (5, 0)] [(0, 0)] = [[true, false]] ∧
    matrix 1 [(0, 0), (5, 0)] [(0, 0)] = [[true], [false]] := by
  have e1 : sep (0, 0) (0, 0) ≤ 1 := by simp [sep]
  have e2 : ¬ sep (5, 0) (0, 0) ≤ 1 := by
    unfold sep; norm_num
  constructor
  · rw [match2D_transposed]; simp [e1, e2]
  · simp [matrix, e1, e2]

/-! ## Nearest neighbours -/

/-- `kdt.query(p,k)`: the answer of scipy's tree, as a specification.  It holds `k` different indices with their distances in
increasing order, and every other point is at least as far.  (How ties are resolved is left open.) -/
structure IsKNN (pts : List Pt) (p : Pt) (k : Nat) (res : List (ℝ × Nat)) : Prop where
  length : res.length = k
  nodup : (res.map (·.2)).Nodup
  valid : ∀ r ∈ res, ∃ h : r.2 < pts.length, r.1 = sep p pts[r.2]
  sorted : (res.map (·.1)).Pairwise (· ≤ ·)
  closest : ∀ j (h : j < pts.length), j ∉ res.map (·.2) → ∀ r ∈ res, r.1 ≤ sep p pts[j]

/-- `match_nearest_coords` on two coordinate arrays, funcs.py 661-707: `n` is the given number, or 2 if the two arrays are the same
object and 1 otherwise.  `query` is the tree's answer. -/
noncomputable def nearestCoords (query : List Pt → Pt → Nat → List (ℝ × Nat)) (c1 c2 : List Pt) (same : Bool) (n : Option Nat) :
    List (ℝ × Nat) :=
  let n := n.getD (if same then 2 else 1)
  c1.map (fun p => ((query c2 p n).getD (n - 1) (0, 0)))

/-- The arrays built from a sequence of coordinate objects, funcs.py 682-695: both loops run over the length of the *first* one. -/
def objectArrays (c1 c2 : List Pt) : Except Err (List Pt × List Pt) :=
  if c2.length < c1.length then .error .index else .ok (c1, c2.take c1.length)

/-- `match_nearest_coords` on two sequences of coordinate objects. -/
noncomputable def nearestObjects (query : List Pt → Pt → Nat → List (ℝ × Nat)) (c1 c2 : List Pt) (same : Bool) (n : Option Nat) :
    Except Err (List (ℝ × Nat)) :=
  match objectArrays c1 c2 with
  | .error e => .error e
  | .ok (a, b) => .ok (nearestCoords query a b same n)

/-- Mode 'nearest' of `match_coords`, funcs.py 567-576: (index, distance, match). -/
noncomputable def nearestMode (query : List Pt → Pt → Nat → List (ℝ × Nat)) (eps : ℝ) (c1 c2 : List Pt) (identical : Bool) :
    List Nat × List ℝ × List Bool :=
  let r := if identical then nearestCoords query c1 c1 true none else nearestCoords query c1 c2 false none
  (r.map (·.2), r.map (·.1), r.map (fun x => decide (x.1 ≤ eps)))

/-- The points of `pts` that satisfy a condition on their distance from `p`, as indices. -/
noncomputable def within (pts : List Pt) (p : Pt) (c : ℝ → Prop) : Finset Nat :=
  (Finset.range pts.length).filter (fun j => ∃ h : j < pts.length, c (sep p pts[j]))

/-- A tree that looks at all points: the specification can be met. -/
noncomputable def bruteForce (pts : List Pt) (p : Pt) (k : Nat) : List (ℝ × Nat) :=
  (((List.range pts.length).insertionSort (fun a b => sep p (pts.getD a 0) ≤ sep p (pts.getD b 0))).take k).map
    (fun j => (sep p (pts.getD j 0), j))

theorem bruteForce_spec (pts : List Pt) (p : Pt) (k : Nat) (hk : k ≤ pts.length) : IsKNN pts p k (bruteForce pts p k) := by
  set le : Nat → Nat → Prop := fun a b => sep p (pts.getD a 0) ≤ sep p (pts.getD b 0) with hle
  haveI : Std.Total le := ⟨fun a b => le_total _ _⟩
  haveI : IsTrans Nat le := ⟨fun a b c h1 h2 => le_trans h1 h2⟩
  set s := (List.range pts.length).insertionSort le with hs
  have hp : s.Perm (List.range pts.length) := List.perm_insertionSort _ _
  have hsort : s.Pairwise le := List.pairwise_insertionSort le _
  have hnd : s.Nodup := hp.nodup_iff.2 List.nodup_range
  have hb : bruteForce pts p k = (s.take k).map (fun j => (sep p (pts.getD j 0), j)) := rfl
  have hmem : ∀ j, j ∈ s ↔ j < pts.length := fun j => by rw [hp.mem_iff, List.mem_range]
  rw [hb]
  have hsnd : ((s.take k).map (fun j => (sep p (pts.getD j 0), j))).map (·.2) = s.take k := by
    rw [List.map_map]; exact List.map_id' _
  constructor
  · have : s.length = pts.length := by rw [hp.length_eq, List.length_range]
    simp [this, hk]
  · rw [hsnd]; exact hnd.sublist (List.take_sublist _ _)
  · intro r hr
    rw [List.mem_map] at hr
    obtain ⟨j, hj, rfl⟩ := hr
    have h := (hmem j).1 (List.mem_of_mem_take hj)
    exact ⟨h, by simp [List.getD, h]⟩
  · rw [List.map_map, List.pairwise_map]
    exact hsort.sublist (List.take_sublist _ _)
  · intro j h hj r hr
    rw [hsnd] at hj
    rw [List.mem_map] at hr
    obtain ⟨i, hi, rfl⟩ := hr
    have hjs : j ∈ s.drop k := by
      have := (hmem j).2 h
      rw [← List.take_append_drop k s, List.mem_append] at this
      exact this.resolve_left hj
    rw [← List.take_append_drop k s, List.pairwise_append] at hsort
    have := hsort.2.2 i hi j hjs
    simp only [hle] at this
    simpa [List.getD, h] using this

theorem nearest_get (query : List Pt → Pt → Nat → List (ℝ × Nat)) (c1 c2 : List Pt) (same : Bool) (n : Option Nat) (i : Nat)
    (hi : i < c1.length) (h' : i < (nearestCoords query c1 c2 same n).length) :
    (nearestCoords query c1 c2 same n)[i] =
      (query c2 c1[i] (n.getD (if same then 2 else 1))).getD ((n.getD (if same then 2 else 1)) - 1) (0, 0) := by
  simp [nearestCoords]

theorem knn_last (pts : List Pt) (p : Pt) (k : Nat) (res : List (ℝ × Nat)) (h : IsKNN pts p k res) (hk : 0 < k) :
    (∃ hv : (res.getD (k - 1) (0, 0)).2 < pts.length, (res.getD (k - 1) (0, 0)).1 = sep p pts[(res.getD (k - 1) (0, 0)).2]) ∧
    (within pts p (· < (res.getD (k - 1) (0, 0)).1)).card < k ∧
    k ≤ (within pts p (· ≤ (res.getD (k - 1) (0, 0)).1)).card := by
  have hlt : k - 1 < res.length := by rw [h.length]; omega
  have hd : res.getD (k - 1) (0, 0) = res[k - 1] := by simp [List.getD, hlt]
  rw [hd]
  have hmem : res[k - 1] ∈ res := List.getElem_mem hlt
  have hle : ∀ r ∈ res, r.1 ≤ res[k - 1].1 := by
    intro r hr
    obtain ⟨i, hi, rfl⟩ := List.getElem_of_mem hr
    rcases Nat.lt_or_ge i (k - 1) with hlt' | hge
    · have := (List.pairwise_iff_getElem.1 h.sorted) i (k - 1) (by simpa using hi) (by simpa using hlt) hlt'
      simpa using this
    · have : i = k - 1 := by rw [h.length] at hi; omega
      subst this; exact le_rfl
  have hcard : (res.map (·.2)).toFinset.card = k := by
    rw [List.toFinset_card_of_nodup h.nodup, List.length_map, h.length]
  refine ⟨h.valid _ hmem, ?_, ?_⟩
  · have hsub : within pts p (· < res[k - 1].1) ⊆ (res.map (·.2)).toFinset.erase res[k - 1].2 := by
      intro j hj
      simp only [within, Finset.mem_filter, Finset.mem_range] at hj
      obtain ⟨hjl, _, hjd⟩ := hj
      rw [Finset.mem_erase, List.mem_toFinset]
      constructor
      · rintro rfl
        obtain ⟨hv, he⟩ := h.valid _ hmem
        linarith
      · by_contra hn
        have := h.closest j hjl hn _ hmem
        linarith
    have := Finset.card_le_card hsub
    rw [Finset.card_erase_of_mem (by rw [List.mem_toFinset]; exact List.mem_map_of_mem hmem), hcard] at this
    omega
  · have hsub : (res.map (·.2)).toFinset ⊆ within pts p (· ≤ res[k - 1].1) := by
      intro j hj
      rw [List.mem_toFinset, List.mem_map] at hj
      obtain ⟨r, hr, rfl⟩ := hj
      obtain ⟨hv, he⟩ := h.valid r hr
      simp only [within, Finset.mem_filter, Finset.mem_range]
      exact ⟨hv, hv, he ▸ hle r hr⟩
    have := Finset.card_le_card hsub
    omega

/-- `match_nearest_coords(c1,c2,n)`: for every point of the first set the returned index is a point of the second set at the
returned distance, fewer than `n` points are closer and at least `n` points are as close: it is the `n`th nearest. -/
theorem nth_nearest (query : List Pt → Pt → Nat → List (ℝ × Nat)) (c1 c2 : List Pt) (same : Bool) (n : Nat)
    (hn : 0 < n) (hq : ∀ p ∈ c1, IsKNN c2 p n (query c2 p n)) :
    (nearestCoords query c1 c2 same (some n)).length = c1.length ∧
    ∀ i (hi : i < c1.length) (h' : i < (nearestCoords query c1 c2 same (some n)).length),
      (∃ hv : ((nearestCoords query c1 c2 same (some n))[i]).2 < c2.length,
        ((nearestCoords query c1 c2 same (some n))[i]).1 = sep c1[i] c2[((nearestCoords query c1 c2 same (some n))[i]).2]) ∧
      (within c2 c1[i] (· < ((nearestCoords query c1 c2 same (some n))[i]).1)).card < n ∧
      n ≤ (within c2 c1[i] (· ≤ ((nearestCoords query c1 c2 same (some n))[i]).1)).card := by
  refine ⟨by simp [nearestCoords], ?_⟩
  intro i hi h'
  rw [nearest_get query c1 c2 same (some n) i hi h']
  exact knn_last c2 c1[i] n _ (hq _ (List.getElem_mem hi)) hn

/-- The default for two different sets: the nearest point. -/
theorem nearest_is_nearest (query : List Pt → Pt → Nat → List (ℝ × Nat)) (c1 c2 : List Pt)
    (hq : ∀ p ∈ c1, IsKNN c2 p 1 (query c2 p 1)) :
    ∀ i (hi : i < c1.length) (h' : i < (nearestCoords query c1 c2 false none).length),
      (∃ hv : ((nearestCoords query c1 c2 false none)[i]).2 < c2.length,
        ((nearestCoords query c1 c2 false none)[i]).1 = sep c1[i] c2[((nearestCoords query c1 c2 false none)[i]).2]) ∧
      ∀ q ∈ c2, ((nearestCoords query c1 c2 false none)[i]).1 ≤ sep c1[i] q := by
  intro i hi h'
  rw [nearest_get query c1 c2 false none i hi h']
  have h := knn_last c2 c1[i] 1 _ (hq _ (List.getElem_mem hi)) one_pos
  refine ⟨h.1, ?_⟩
  intro q hqm
  obtain ⟨j, hj, rfl⟩ := List.getElem_of_mem hqm
  by_contra hlt
  push Not at hlt
  have hc := h.2.1
  rw [Nat.lt_one_iff, Finset.card_eq_zero] at hc
  have : j ∈ within c2 c1[i] (· < ((query c2 c1[i] 1).getD (1 - 1) (0, 0)).1) := by
    simp only [within, Finset.mem_filter, Finset.mem_range]
    exact ⟨hj, hj, hlt⟩
  rw [hc] at this
  simp at this

/-- The default for a set with itself: the distance to the nearest *other* point, and the index of another point unless the
coordinates occur twice. -/
theorem nearest_other (query : List Pt → Pt → Nat → List (ℝ × Nat)) (c : List Pt)
    (hq : ∀ p ∈ c, IsKNN c p 2 (query c p 2)) :
    ∀ i (hi : i < c.length) (h' : i < (nearestCoords query c c true none).length),
      (∀ j (hj : j < c.length), j ≠ i → ((nearestCoords query c c true none)[i]).1 ≤ sep c[i] c[j]) ∧
      (∃ j, ∃ hj : j < c.length, j ≠ i ∧ ((nearestCoords query c c true none)[i]).1 = sep c[i] c[j]) ∧
      (c.Nodup → ((nearestCoords query c c true none)[i]).2 ≠ i) := by
  intro i hi h'
  rw [nearest_get query c c true none i hi h']
  obtain ⟨⟨hv, he⟩, h1, h2⟩ := knn_last c c[i] 2 _ (hq _ (List.getElem_mem hi)) two_pos
  simp only [if_true, Option.getD_none]
  set r := (query c c[i] 2).getD (2 - 1) (0, 0) with hr
  have hself : sep c[i] c[i] = 0 := by simp [sep]
  have hpos : ∀ q, 0 ≤ sep c[i] q := fun q => sqrt_nonneg _
  have hothers : ∀ j (hj : j < c.length), j ≠ i → r.1 ≤ sep c[i] c[j] := by
    intro j hj hne
    by_contra hlt
    push Not at hlt
    have hsub : ({i, j} : Finset Nat) ⊆ within c c[i] (· < r.1) := by
      intro x hx
      rw [Finset.mem_insert, Finset.mem_singleton] at hx
      simp only [within, Finset.mem_filter, Finset.mem_range]
      rcases hx with rfl | rfl
      · exact ⟨hi, hi, by rw [hself]; exact lt_of_le_of_lt (hpos c[j]) hlt⟩
      · exact ⟨hj, hj, hlt⟩
    have := Finset.card_le_card hsub
    rw [Finset.card_pair (Ne.symm hne)] at this
    omega
  have hex : ∃ j, ∃ hj : j < c.length, j ≠ i ∧ sep c[i] c[j] ≤ r.1 := by
    by_contra hno
    push Not at hno
    have hsub : within c c[i] (· ≤ r.1) ⊆ {i} := by
      intro x hx
      simp only [within, Finset.mem_filter, Finset.mem_range] at hx
      obtain ⟨hx, _, hd⟩ := hx
      rw [Finset.mem_singleton]
      by_contra hne
      have := hno x hx hne
      linarith
    have := Finset.card_le_card hsub
    rw [Finset.card_singleton] at this
    omega
  obtain ⟨j, hj, hne, hle⟩ := hex
  refine ⟨hothers, ⟨j, hj, hne, le_antisymm (hothers j hj hne) hle⟩, ?_⟩
  intro hnd hri
  have he' : r.1 = 0 := by
    rw [he]; simp only [← hr, hri]; exact hself
  have hz : sep c[i] c[j] = 0 := le_antisymm (he' ▸ hle) (hpos _)
  have hp : c[i] = c[j] := by
    unfold sep at hz
    rw [sqrt_eq_zero (by positivity)] at hz
    have a1 : (c[i].1 - c[j].1) ^ 2 = 0 := by nlinarith [sq_nonneg (c[i].1 - c[j].1), sq_nonneg (c[i].2 - c[j].2)]
    have a2 : (c[i].2 - c[j].2) ^ 2 = 0 := by nlinarith [sq_nonneg (c[i].1 - c[j].1), sq_nonneg (c[i].2 - c[j].2)]
    exact Prod.ext (by linarith [pow_eq_zero_iff (two_ne_zero) |>.1 a1]) (by linarith [pow_eq_zero_iff (two_ne_zero) |>.1 a2])
  exact hne ((List.Nodup.getElem_inj_iff hnd).1 hp).symm

/-- Mode 'nearest' reports the same index and distance, and its flag says whether the point has a match in the sense of 'mask'. -/
theorem nearestMode_spec (query : List Pt → Pt → Nat → List (ℝ × Nat)) (eps : ℝ) (c1 c2 : List Pt)
    (hq : ∀ p ∈ c1, IsKNN c2 p 1 (query c2 p 1)) :
    (nearestMode query eps c1 c2 false).2.2 = (maskMode eps c1 c2).1 ∧
    (nearestMode query eps c1 c2 false).1 = (nearestCoords query c1 c2 false none).map (·.2) ∧
    (nearestMode query eps c1 c2 false).2.1 = (nearestCoords query c1 c2 false none).map (·.1) := by
  refine ⟨?_, rfl, rfl⟩
  rw [mask_spec]
  apply List.ext_getElem
  · simp [nearestMode, nearestCoords]
  · intro i h1 h2
    have hi : i < c1.length := by simpa using h2
    have h' : i < (nearestCoords query c1 c2 false none).length := by simpa [nearestCoords] using hi
    obtain ⟨⟨hv, he⟩, hmin⟩ := nearest_is_nearest query c1 c2 hq i hi h'
    simp only [nearestMode, Bool.false_eq_true, if_false, List.getElem_map, decide_eq_decide]
    constructor
    · intro h
      exact ⟨_, List.getElem_mem hv, he ▸ h⟩
    · rintro ⟨q, hqm, hle⟩
      exact (hmin q hqm).trans hle

/-- Mode 'nearest' on a set with itself looks at the nearest other points: its flag says whether another point is within the tolerance. -/
theorem nearestMode_self (query : List Pt → Pt → Nat → List (ℝ × Nat)) (eps : ℝ) (c c2 : List Pt) (hq : ∀ p ∈ c, IsKNN c p 2 (query c p 2)) :
    ∀ i (hi : i < c.length), ∃ k d m, (nearestMode query eps c c2 true).1[i]? = some k ∧ (nearestMode query eps c c2 true).2.1[i]? = some d ∧
      (nearestMode query eps c c2 true).2.2[i]? = some m ∧ (c.Nodup → k ≠ i) ∧
      (m = true ↔ ∃ j, ∃ hj : j < c.length, j ≠ i ∧ sep c[i] c[j] ≤ eps) := by
  intro i hi
  have h' : i < (nearestCoords query c c true none).length := by simpa [nearestCoords] using hi
  obtain ⟨h1, ⟨j, hj, hji, hje⟩, h3⟩ := nearest_other query c hq i hi h'
  refine ⟨((nearestCoords query c c true none)[i]).2, ((nearestCoords query c c true none)[i]).1,
    decide (((nearestCoords query c c true none)[i]).1 ≤ eps), ?_, ?_, ?_, h3, ?_⟩
  · simp [nearestMode, List.getElem?_eq_getElem h']
  · simp [nearestMode, List.getElem?_eq_getElem h']
  · simp [nearestMode, List.getElem?_eq_getElem h']
  · rw [decide_eq_true_eq]
    constructor
    · intro h; exact ⟨j, hj, hji, hje ▸ h⟩
    · rintro ⟨j', hj', hne, hle⟩
      exact (h1 j' hj' hne).trans hle

/-- Sequences of coordinate objects: with equal lengths the same as for arrays. -/
theorem objects_equal_lengths (query : List Pt → Pt → Nat → List (ℝ × Nat)) (c1 c2 : List Pt) (same : Bool) (n : Option Nat)
    (h : c1.length = c2.length) : nearestObjects query c1 c2 same n = .ok (nearestCoords query c1 c2 same n) := by
  unfold nearestObjects objectArrays
  rw [if_neg (by omega), h, List.take_length]

/-- A shorter second sequence always raises IndexError. -/
theorem objects_shorter_fails (query : List Pt → Pt → Nat → List (ℝ × Nat)) (c1 c2 : List Pt) (same : Bool) (n : Option Nat)
    (h : c2.length < c1.length) : nearestObjects query c1 c2 same n = .error .index := by
  unfold nearestObjects objectArrays
  rw [if_pos h]

/-- **C76** for sequences of objects, exactly: IndexError if the second is shorter; otherwise the answer is that for the first
`len(c1)` objects of the second one. -/
theorem objects_exact (query : List Pt → Pt → Nat → List (ℝ × Nat)) (c1 c2 : List Pt) (same : Bool) (n : Option Nat) :
    nearestObjects query c1 c2 same n =
      if c2.length < c1.length then .error .index else .ok (nearestCoords query c1 (c2.take c1.length) same n) := by
  unfold nearestObjects objectArrays
  by_cases h : c2.length < c1.length
  · rw [if_pos h, if_pos h]
  · rw [if_neg h, if_neg h]

/-- Of a longer second sequence only the first `len(c1)` are looked at, whatever the tree does: the exact match in second place
is not found. -/
theorem objects_longer_ignored : ∃ (c1 c2 : List Pt) (p : Pt), c1 = [p] ∧ p ∈ c2 ∧ sep p p = 0 ∧
    ∀ query : List Pt → Pt → Nat → List (ℝ × Nat), (∀ c p, 1 ≤ c.length → IsKNN c p 1 (query c p 1)) →
      nearestObjects query c1 c2 false none = .ok [(5, 0)] := by
  refine ⟨[(0, 0)], [(3, 4), (0, 0)], (0, 0), rfl, by simp, by simp [sep], ?_⟩
  intro query hq
  have h := hq [(3, 4)] (0, 0) (by simp)
  unfold nearestObjects objectArrays nearestCoords
  simp only [List.length_cons, List.length_nil, List.take_succ_cons, List.take_zero, List.map_cons, List.map_nil, Option.getD_none,
    Bool.false_eq_true, if_false]
  rw [if_neg (by omega)]
  simp only [List.map_cons, List.map_nil]
  obtain ⟨r, hr⟩ := List.length_eq_one_iff.1 h.length
  rw [hr]
  obtain ⟨hv, he⟩ := h.valid r (by rw [hr]; simp)
  have h2 : r.2 = 0 := by simpa using hv
  have h1 : r.1 = 5 := by
    rw [he]
    simp only [h2, List.getElem_cons_zero, sep]
    norm_num
    rw [show (25 : ℝ) = 5 ^ 2 by norm_num]
    exact sqrt_sq (by norm_num)
  simp [← h1, ← h2]

/-- The specification of the tree is met by a search over all points, so the theorems apply, for instance, to: -/
example : ∀ i (hi : i < [((0 : ℝ), (0 : ℝ)), (3, 4), (1, 0)].length)
    (h' : i < (nearestCoords bruteForce [(0, 0), (3, 4), (1, 0)] [(0, 0), (3, 4), (1, 0)] true none).length),
    ((nearestCoords bruteForce [(0, 0), (3, 4), (1, 0)] [(0, 0), (3, 4), (1, 0)] true none)[i]).2 ≠ i := by
  intro i hi h'
  exact (nearest_other bruteForce [(0, 0), (3, 4), (1, 0)] (fun p _ => bruteForce_spec _ p 2 (by simp)) i hi h').2.2 (by
    simp [Prod.ext_iff])

/-! ## Separation matrix -/

/-- `separation_matrix(v,w,tri)` for one-dimensional arrays, funcs.py 710-748: `A[i,j] = v[i]-w[j]`, `np.triu` keeps `i ≤ j`. -/
noncomputable def separationMatrix (v : List ℝ) (w : Option (List ℝ)) (tri : Bool) : List (List ℝ) :=
  let w := w.getD v
  (List.range v.length).map (fun i => (List.range w.length).map (fun j =>
    if tri && decide (j < i) then 0 else v.getD i 0 - w.getD j 0))

/-- The separation matrix of a vector with itself holds every difference, is antisymmetric, and with `tri=True` every pair is kept
exactly once (above the diagonal). -/
theorem separation_spec (v : List ℝ) (i j : Nat) (hi : i < v.length) (hj : j < v.length) :
    ((separationMatrix v none false).getD i []).getD j 0 = v[i] - v[j] ∧
    ((separationMatrix v none true).getD i []).getD j 0 = (if j < i then 0 else v[i] - v[j]) ∧
    ((separationMatrix v none false).getD i []).getD j 0 = -((separationMatrix v none false).getD j []).getD i 0 := by
  simp [separationMatrix, List.getD, hi, hj]

end Verif.MatchCoords
