import Mathlib.Analysis.SpecialFunctions.Log.Base
import Mathlib.Data.List.Perm.Basic
import Mathlib.Data.List.Nodup
import Mathlib.Tactic.Linarith
import Mathlib.Tactic.NormNum

/-!
# Scatter plots with logarithmic axes, colours and sizes (astropysics/plotting.py, `scatter4d`, 321-389) (C235)

Exact real arithmetic; the data are numpy arrays; at least one point is drawn (indexing with an empty array of floats depends on the version of numpy).
-/

namespace Verif.Scatter4d

inductive Err
  | value | index
  deriving DecidableEq

/-- Colours or sizes: nothing, a number, or an array. -/
inductive Dim
  | none
  | num (v : ℝ)
  | arr (l : List ℝ)

/-- plotting.py:329-336. -/
def fill (n : ℕ) : Dim → List ℝ
  | .none => List.replicate n 1
  | .num v => List.replicate n v
  | .arr l => l

/-- What can be logarithmic: x, y, colour and size. -/
structure Logs where
  x : Bool
  y : Bool
  c : Bool
  s : Bool

/-- One point drawn. -/
structure Pt where
  x : ℝ
  y : ℝ
  s : ℝ
  c : ℝ

/-- numpy's `log10` compared with 0: of numbers that are not positive it is `-inf` or `nan`, which are not greater. -/
noncomputable def logPos (v : ℝ) : Bool := if 0 < v then decide (0 < Real.logb 10 v) else false

noncomputable def log10 (b : Bool) (l : List ℝ) : List ℝ := if b then l.map (Real.logb 10) else l

/-- The positions at which `p` holds (`where`). -/
def positions (p : ℝ → Bool) (l : List ℝ) : List ℕ := (List.range l.length).filter fun i => p (l.getD i 0)

/-- `inds` (plotting.py:346-364), here in increasing order; a set, so in the order the interpreter likes. -/
noncomputable def inds (lg : Logs) (x y c s : List ℝ) : List ℕ :=
  let i := List.range x.length
  let i := if lg.x then i.filter (· ∈ positions (fun v => decide (0 < v)) x) else i
  let i := if lg.y then i.filter (· ∈ positions (fun v => decide (0 < v)) y) else i
  let i := if lg.c then i.filter (· ∈ positions logPos c) else i
  if lg.s then i.filter (· ∈ positions logPos s) else i

/-- `scatter4d` (plotting.py:321-389): the indices and the points drawn. The lengths are compared by a chain of `!=`, which needs all of them to hold.
`scaling` of x, y, c and s. -/
noncomputable def scatter4d (lg : Logs) (sc : ℝ × ℝ × ℝ × ℝ) (x y : List ℝ) (c s : Dim) : Except Err (List ℕ × List Pt) :=
  let c := fill x.length c
  let s := fill x.length s
  if x.length ≠ y.length ∧ y.length ≠ c.length ∧ c.length ≠ s.length then .error .value
  else
    let x := x.map (· * sc.1)
    let y := y.map (· * sc.2.1)
    let c := c.map (· * sc.2.2.1)
    let s := s.map (· * sc.2.2.2)
    let i := inds lg x y c s
    let c := log10 lg.c c
    let s := log10 lg.s s
    if i.any fun k => y.length ≤ k ∨ c.length ≤ k ∨ s.length ≤ k then .error .index
    else .ok (i, i.map fun k => ⟨x.getD k 0, y.getD k 0, s.getD k 0, c.getD k 0⟩)

/-! ## Theorems -/

theorem logPos_iff (v : ℝ) : logPos v = true ↔ 1 < v := by
  unfold logPos
  split
  · next h => simp only [decide_eq_true_eq]; exact Real.logb_pos_iff (by norm_num) h
  · next h => simp only [Bool.false_eq_true, false_iff]; intro h1; exact h (by linarith)

theorem mem_positions (p : ℝ → Bool) (l : List ℝ) (i : ℕ) : i ∈ positions p l ↔ i < l.length ∧ p (l.getD i 0) = true := by
  simp [positions]

theorem mem_inds (lg : Logs) (x y c s : List ℝ) (i : ℕ) : i ∈ inds lg x y c s ↔ i < x.length ∧ (lg.x = true → 0 < x.getD i 0) ∧
    (lg.y = true → i < y.length ∧ 0 < y.getD i 0) ∧ (lg.c = true → i < c.length ∧ 1 < c.getD i 0) ∧ (lg.s = true → i < s.length ∧ 1 < s.getD i 0) := by
  have f : ∀ (b : Bool) (l : List ℕ) (q : List ℕ), i ∈ (if b then l.filter (· ∈ q) else l) ↔ i ∈ l ∧ (b = true → i ∈ q) := by
    intro b l q; cases b <;> simp
  unfold inds
  simp only [f]
  simp only [mem_positions, logPos_iff, List.mem_range, decide_eq_true_eq]
  constructor
  · rintro ⟨⟨⟨⟨h1, h2⟩, h3⟩, h4⟩, h5⟩; exact ⟨h1, fun h => (h2 h).2, h3, h4, h5⟩
  · rintro ⟨h1, h2, h3, h4, h5⟩; exact ⟨⟨⟨⟨h1, fun h => ⟨h1, h2 h⟩⟩, h3⟩, h4⟩, h5⟩

theorem inds_nodup (lg : Logs) (x y c s : List ℝ) : (inds lg x y c s).Nodup := by
  have f : ∀ (b : Bool) (l : List ℕ) (q : List ℕ), l.Nodup → (if b then l.filter (· ∈ q) else l).Nodup := by
    intro b l q h; cases b
    · exact h
    · exact h.filter _
  unfold inds
  exact f _ _ _ (f _ _ _ (f _ _ _ (f _ _ _ List.nodup_range)))

theorem getD_map (l : List ℝ) (k : ℝ) (i : ℕ) : (l.map (· * k)).getD i 0 = l.getD i 0 * k := by
  simp only [List.getD_eq_getElem?_getD, List.getElem?_map]
  cases l[i]? <;> simp

theorem length_log10 (b : Bool) (l : List ℝ) : (log10 b l).length = l.length := by unfold log10; split <;> simp

theorem getD_log10 (b : Bool) (l : List ℝ) (i : ℕ) (h : i < l.length) : (log10 b l).getD i 0 = if b then Real.logb 10 (l.getD i 0) else l.getD i 0 := by
  unfold log10
  split
  · simp [List.getD_eq_getElem?_getD, h]
  · rfl

/-- **C235.** With arrays of the same length, point `i` is drawn, once, exactly if its scaled x is positive where that is asked for, and its y, and its scaled
colour and size are greater than ONE where logarithms are asked for (their logarithms must be positive); then with its scaled values or their logarithms. -/
theorem drawn (lg : Logs) (sx sy sc ss : ℝ) (x y : List ℝ) (c s : Dim) (hy : y.length = x.length) (hc : (fill x.length c).length = x.length)
    (hs : (fill x.length s).length = x.length) :
    ∃ i p, scatter4d lg (sx, sy, sc, ss) x y c s = .ok (i, p) ∧ i.Nodup ∧
      (∀ k, k ∈ i ↔ k < x.length ∧ (lg.x = true → 0 < x.getD k 0 * sx) ∧ (lg.y = true → 0 < y.getD k 0 * sy) ∧
        (lg.c = true → 1 < (fill x.length c).getD k 0 * sc) ∧ (lg.s = true → 1 < (fill x.length s).getD k 0 * ss)) ∧
      p = i.map fun k => ⟨x.getD k 0 * sx, y.getD k 0 * sy,
        if lg.s then Real.logb 10 ((fill x.length s).getD k 0 * ss) else (fill x.length s).getD k 0 * ss,
        if lg.c then Real.logb 10 ((fill x.length c).getD k 0 * sc) else (fill x.length c).getD k 0 * sc⟩ := by
  have hm : ∀ k, k ∈ inds lg (x.map (· * sx)) (y.map (· * sy)) ((fill x.length c).map (· * sc)) ((fill x.length s).map (· * ss)) ↔ k < x.length ∧
      (lg.x = true → 0 < x.getD k 0 * sx) ∧ (lg.y = true → 0 < y.getD k 0 * sy) ∧
        (lg.c = true → 1 < (fill x.length c).getD k 0 * sc) ∧ (lg.s = true → 1 < (fill x.length s).getD k 0 * ss) := by
    intro k
    rw [mem_inds]
    simp only [getD_map, List.length_map, hy, hc, hs]
    constructor
    · rintro ⟨h1, h2, h3, h4, h5⟩; exact ⟨h1, h2, fun h => (h3 h).2, fun h => (h4 h).2, fun h => (h5 h).2⟩
    · rintro ⟨h1, h2, h3, h4, h5⟩; exact ⟨h1, h2, fun h => ⟨h1, h3 h⟩, fun h => ⟨h1, h4 h⟩, fun h => ⟨h1, h5 h⟩⟩
  refine ⟨_, _, ?_, inds_nodup lg (x.map (· * sx)) (y.map (· * sy)) ((fill x.length c).map (· * sc)) ((fill x.length s).map (· * ss)), hm, rfl⟩
  unfold scatter4d
  simp only []
  rw [if_neg (by rintro ⟨h, -⟩; exact h hy.symm), if_neg]
  · congr 2
    refine List.map_congr_left ?_
    intro k hk
    have hk' := ((hm k).1 hk).1
    rw [getD_map, getD_map, getD_log10 _ _ _ (by rw [List.length_map, hs]; exact hk'), getD_log10 _ _ _ (by rw [List.length_map, hc]; exact hk'), getD_map, getD_map]
  · intro h
    obtain ⟨k, hk, h⟩ := List.any_eq_true.1 h
    have hk' := ((hm k).1 hk).1
    simp only [length_log10, List.length_map, hy, hc, hs, decide_eq_true_eq] at h
    omega

/-- **C235.** Numbers for colour and size stand for all points, nothing for 1; a logarithmic colour or size not above 1 then draws nothing at all. -/
theorem constant (n : ℕ) (v : ℝ) (i : ℕ) (h : i < n) : (fill n (.num v)).length = n ∧ (fill n .none).length = n ∧ (fill n (.num v)).getD i 0 = v ∧
    (fill n .none).getD i 0 = 1 := by
  simp [fill, List.getD_eq_getElem?_getD, h]

/-- **C235.** The check of the lengths: it refuses only if all three pairs of neighbours differ. Colours longer than the data pass, the rest is ignored, and shorter
ones are an IndexError unless the points that lack one are left out for another reason. -/
theorem lengths (lg : Logs) (sc : ℝ × ℝ × ℝ × ℝ) (x y : List ℝ) (c s : Dim) :
    (scatter4d lg sc x y c s = .error .value ↔ x.length ≠ y.length ∧ y.length ≠ (fill x.length c).length ∧ (fill x.length c).length ≠ (fill x.length s).length) ∧
    (∀ l, c = .arr l → y.length = x.length → l.length < x.length → lg = ⟨false, false, false, false⟩ → scatter4d lg sc x y c s = .error .index) := by
  refine ⟨?_, ?_⟩
  · unfold scatter4d
    simp only []
    split
    · next h => exact ⟨fun _ => h, fun _ => rfl⟩
    · next h =>
      constructor
      · intro h2
        split at h2 <;> simp at h2
      · intro h2; exact absurd h2 h
  · rintro l rfl hy hl rfl
    unfold scatter4d
    simp only []
    rw [if_neg (by rintro ⟨h, -⟩; exact h hy.symm), if_pos]
    refine List.any_eq_true.2 ⟨x.length - 1, ?_, ?_⟩
    · rw [mem_inds]
      simp only [List.length_map, Bool.false_eq_true, false_implies, and_true]
      omega
    · simp only [length_log10, List.length_map, fill, decide_eq_true_eq]
      right; left; omega

/-! ## Concrete cases -/

example : ∃ i p, scatter4d ⟨true, false, true, false⟩ (1, 1, 1, 1) [1, -1, 2] [0, 0, 0] (.arr [10, 10, 1/2]) .none = .ok (i, p) ∧ 0 ∈ i ∧ 1 ∉ i ∧ 2 ∉ i := by
  obtain ⟨i, p, h, -, hm, -⟩ := drawn ⟨true, false, true, false⟩ 1 1 1 1 [1, -1, 2] [0, 0, 0] (.arr [10, 10, 1/2]) .none rfl rfl rfl
  refine ⟨i, p, h, ?_, ?_, ?_⟩ <;> rw [hm] <;> norm_num [fill]

example : scatter4d ⟨false, false, false, false⟩ (1, 1, 1, 1) [1, 2] [1] (.arr [1, 2]) (.arr [1]) = .error .value :=
  (lengths _ _ _ _ _ _).1.2 (by simp [fill])

end Verif.Scatter4d
