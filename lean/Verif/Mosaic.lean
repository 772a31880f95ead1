import Mathlib.Data.Nat.Sqrt
import Mathlib.Data.List.Nodup
import Mathlib.Tactic.Linarith
import Mathlib.Tactic.Ring

/-!
# Mosaics of objects (astropysics/ccd.py 1674-1783) (C204)

Which panel an object gets and which files are loaded.  Drawing is left out.
-/

namespace Verif.Mosaic

inductive Err
  | attribute
  | type
  | index
  | value
  deriving DecidableEq

/-- The `row` argument: None, a scalar, a nonempty list or tuple, an array of integers or a nonempty one of floats. -/
inductive Row
  | none
  | scalar
  | list
  | ints (l : List ℤ)
  | floats

/-- `int(np.ceil(n**0.5))`, ccd.py 1733: the least number whose square is at least `n`. -/
def side (n : ℕ) : ℕ := if Nat.sqrt n * Nat.sqrt n = n then Nat.sqrt n else Nat.sqrt n + 1

/-- The loop of ccd.py 1734-1738 with the number of rows so far; fuel: `n` rounds suffice. -/
def fillRows (n cols : ℕ) : ℕ → ℕ → List ℤ → ℕ × List ℤ
  | 0, rws, row => (rws, row)
  | fuel + 1, rws, row => if rws * cols < n then fillRows n cols fuel (rws + 1) (row ++ List.replicate cols ((rws : ℤ) + 1)) else (rws, row)

/-- Occurrences of the value in the list, `cols[r]+=1`. -/
def most (l : List ℤ) : ℕ := (l.map fun r => l.count r).foldl max 0

/-- Rows, columns and the row of every object, ccd.py 1731-1746.  A list has no `astype`; a scalar has been made an array of floats and `range` of a float
is a TypeError, after `np.max` of an empty array, a ValueError. -/
def grid (n : ℕ) : Row → Except Err (ℤ × ℕ × List ℤ)
  | .none =>
    let cols := side n
    let (rws, row) := fillRows n cols n 0 []
    .ok (rws, cols, row.take n)
  | .scalar => if n = 0 then .error .value else .error .type
  | .list => .error .attribute
  | .floats => .error .type
  | .ints [] => .error .value
  | .ints (a :: l) => .ok (l.foldl max a, most (a :: l), a :: l)

/-- Python's `l[i]` and `l[i] = x` for a list of length `n`: negative indices count from the end. -/
def pyIndex (n : ℕ) (i : ℤ) : Option ℕ :=
  if 0 ≤ i then (if i < n then some i.toNat else none) else if 0 ≤ n + i then some (n + i).toNat else none

/-- The panels, ccd.py 1749-1755: `rowcounts` and the number of the subplot of every object. -/
def panels (cols : ℕ) : List ℕ → List ℤ → Except Err (List ℤ)
  | _, [] => .ok []
  | counts, rw :: rows => match pyIndex counts.length (rw - 1) with
    | none => .error .index
    | some k =>
      let c := counts.getD k 0
      match panels cols (counts.set k (c + 1)) rows with
      | .error e => .error e
      | .ok l => .ok ((c + (rw - 1) * cols + 1) :: l)

/-- `mosaic_objects` up to the drawing: rows, columns and panel numbers of the objects drawn; `m` objects remain after `zip` (ccd.py 1751). -/
def layout (n m : ℕ) (row : Row) : Except Err (ℤ × ℕ × List ℤ) :=
  match grid n row with
  | .error e => .error e
  | .ok (rws, cols, rows) => match panels cols (List.replicate rws.toNat 0) (rows.take m) with
    | .error e => .error e
    | .ok l => .ok (rws, cols, l)

/-- The loading of images, ccd.py 1757-1759: the files loaded and the dictionary (keys) afterwards. -/
def loadAll {K : Type} [DecidableEq K] : List K → List K → List K × List K
  | have_, [] => ([], have_)
  | have_, i :: l => if i ∈ have_ then loadAll have_ l else
    let r := loadAll (have_ ++ [i]) l
    (i :: r.1, r.2)

/-- `load_image_file`, ccd.py 1674-1687, by the extension in lower case. -/
def loadable (ext : String) : Bool := ext = "fits" || ext = "fit"

/-! ## Automatic layout -/

theorem side_spec (n : ℕ) : n ≤ side n * side n ∧ ∀ k, n ≤ k * k → side n ≤ k := by
  have h1 := Nat.sqrt_le n
  unfold side
  split_ifs with h
  · refine ⟨h.ge, fun k hk => ?_⟩
    by_contra hc
    have hc : k + 1 ≤ Nat.sqrt n := by omega
    have := Nat.mul_le_mul hc hc
    nlinarith
  · refine ⟨by have := Nat.sqrt_lt'.1 (Nat.lt_succ_self (Nat.sqrt n)); simp only [Nat.succ_eq_add_one] at this; nlinarith, fun k hk => ?_⟩
    by_contra hc
    have hc : k ≤ Nat.sqrt n := by omega
    have := Nat.mul_le_mul hc hc
    omega

/-- Rows of `cols` panels each. -/
def rowsUpTo (cols : ℕ) (r : ℕ) : List ℤ := (List.range (r * cols)).map fun i => ((i / cols : ℕ) : ℤ) + 1

theorem rowsUpTo_succ (cols r : ℕ) (hc : 0 < cols) : rowsUpTo cols (r + 1) = rowsUpTo cols r ++ List.replicate cols ((r : ℤ) + 1) := by
  unfold rowsUpTo
  rw [Nat.add_mul, Nat.one_mul, List.range_add, List.map_append]
  congr 1
  apply List.ext_getElem?
  intro i
  by_cases hi : i < cols
  · have e : (r * cols + i) / cols = r := by
      rw [Nat.mul_comm, Nat.mul_add_div hc, Nat.div_eq_of_lt hi, Nat.add_zero]
    simp [hi, List.getElem?_replicate]
    exact_mod_cast e
  · simp [hi, List.getElem?_replicate]

theorem fillRows_spec (n cols : ℕ) (hc : 0 < cols) (fuel rws : ℕ) (hf : n ≤ (rws + fuel) * cols) :
    ∃ r, fillRows n cols fuel rws (rowsUpTo cols rws) = (r, rowsUpTo cols r) ∧ n ≤ r * cols ∧ (r = rws ∨ (r - 1) * cols < n) := by
  induction fuel generalizing rws with
  | zero => exact ⟨rws, rfl, by simpa using hf, .inl rfl⟩
  | succ fuel ih =>
    unfold fillRows
    split_ifs with h
    · rw [← rowsUpTo_succ cols rws hc]
      obtain ⟨r, h1, h2, h3⟩ := ih (rws + 1) (by rw [show rws + 1 + fuel = rws + (fuel + 1) by omega]; exact hf)
      refine ⟨r, h1, h2, .inr ?_⟩
      rcases h3 with rfl | h3
      · simpa using h
      · exact h3
    · exact ⟨rws, rfl, by omega, .inl rfl⟩

theorem grid_none (n : ℕ) (hn : 0 < n) : ∃ r : ℕ, grid n .none = .ok ((r : ℤ), side n, (List.range n).map fun i => ((i / side n : ℕ) : ℤ) + 1) ∧
    n ≤ r * side n ∧ (r - 1) * side n < n ∧ r ≤ side n := by
  have hs := side_spec n
  have hc : 0 < side n := by
    rcases Nat.eq_zero_or_pos (side n) with h | h
    · have := hs.1; rw [h] at this; omega
    · exact h
  obtain ⟨r, h1, h2, h3⟩ := fillRows_spec n (side n) hc n 0 (by rw [Nat.zero_add]; exact Nat.le_mul_of_pos_right n hc)
  have h3' : (r - 1) * side n < n := by
    rcases h3 with rfl | h3
    · simpa using hn
    · exact h3
  refine ⟨r, ?_, h2, h3', ?_⟩
  · have e : rowsUpTo (side n) 0 = [] := by simp [rowsUpTo]
    rw [e] at h1
    simp only [grid, h1]
    congr 3
    unfold rowsUpTo
    rw [← List.map_take, List.take_range, min_eq_left h2]
  · by_contra hlt
    have h4 : side n ≤ r - 1 := by omega
    have := Nat.mul_le_mul_right (side n) h4
    omega

/-- Panels of rows in reading order: the object `i` of a grid of `c` columns. -/
theorem panels_reading (cols : ℕ) (hc : 0 < cols) (rws : ℕ) (m : ℕ) (i : ℕ) (hm : i + m ≤ rws * cols) (counts : List ℕ) (hl : counts.length = rws)
    (hcnt : ∀ k, k < rws → counts.getD k 0 = min cols (i - k * cols)) :
    panels cols counts ((List.range m).map fun j => (((i + j) / cols : ℕ) : ℤ) + 1) = .ok ((List.range m).map fun j => ((i + j : ℕ) : ℤ) + 1) := by
  induction m generalizing i counts with
  | zero => rfl
  | succ m ih =>
    have hrow : i / cols < rws := by
      apply Nat.div_lt_of_lt_mul; rw [Nat.mul_comm]; omega
    have hp : pyIndex counts.length ((((i / cols : ℕ) : ℤ) + 1) - 1) = some (i / cols) := by
      have : (((i / cols : ℕ) : ℤ) + 1) - 1 = ((i / cols : ℕ) : ℤ) := by ring
      rw [this]
      unfold pyIndex
      rw [if_pos (Int.natCast_nonneg _), if_pos (by rw [hl]; exact_mod_cast hrow), Int.toNat_natCast]
    have hdm := Nat.div_add_mod i cols
    have hml := Nat.mod_lt i hc
    have hcc : counts.getD (i / cols) 0 = i % cols := by
      rw [hcnt _ hrow]
      have : i - i / cols * cols = i % cols := by rw [Nat.mul_comm]; omega
      rw [this, min_eq_right hml.le]
    rw [List.range_succ_eq_map]
    simp only [List.map_cons, List.map_map, Nat.add_zero, panels, hp, hcc]
    have ih' := ih (i + 1) (by omega) (counts.set (i / cols) (i % cols + 1)) (by simp [hl]) (by
      intro k hk
      by_cases hki : k = i / cols
      · subst hki
        rw [List.getD_eq_getElem?_getD, List.getElem?_set_self (by omega)]
        simp only [Option.getD_some]
        have : i + 1 - i / cols * cols = i % cols + 1 := by rw [Nat.mul_comm]; omega
        rw [this, min_eq_right (by omega)]
      · rw [List.getD_eq_getElem?_getD, List.getElem?_set_ne (Ne.symm hki), ← List.getD_eq_getElem?_getD, hcnt k hk]
        rcases Nat.lt_or_gt_of_ne hki with h | h
        · have : (k + 1) * cols ≤ i / cols * cols := Nat.mul_le_mul_right _ h
          have : i / cols * cols ≤ i := Nat.div_mul_le_self i cols
          rw [Nat.add_mul, Nat.one_mul] at *
          rw [min_eq_left (by omega), min_eq_left (by omega)]
        · have : (i / cols + 1) * cols ≤ k * cols := Nat.mul_le_mul_right _ h
          have h2 : i < (i / cols + 1) * cols := by rw [Nat.add_mul, Nat.one_mul, Nat.mul_comm]; omega
          have : i + 1 ≤ k * cols := by omega
          rw [Nat.sub_eq_zero_of_le this, Nat.sub_eq_zero_of_le (by omega)])
    have e1 : ((fun j => (((i + j) / cols : ℕ) : ℤ) + 1) ∘ Nat.succ) = fun j => (((i + 1 + j) / cols : ℕ) : ℤ) + 1 := by
      funext j; simp only [Function.comp, Nat.succ_eq_add_one]; congr 3; omega
    have e2 : ((fun j => ((i + j : ℕ) : ℤ) + 1) ∘ Nat.succ) = fun j => ((i + 1 + j : ℕ) : ℤ) + 1 := by
      funext j; simp only [Function.comp, Nat.succ_eq_add_one]; congr 2; omega
    rw [e1, e2, ih']
    simp only
    congr 2
    have : ((i % cols : ℕ) : ℤ) + ((i / cols : ℕ) : ℤ) * cols = (i : ℤ) := by exact_mod_cast (by rw [Nat.mul_comm]; omega : i % cols + i / cols * cols = i)
    linarith

/-- C204: without `row` the objects fill a grid in reading order: object number i is in panel i; the grid has as many columns as the side of the smallest
square that holds them all, and as few rows as they need. -/
theorem automatic (n m : ℕ) (hn : 0 < n) (hm : m ≤ n) : ∃ rws cols : ℕ, layout n m .none = .ok (rws, cols, (List.range m).map fun i : ℕ => (i : ℤ) + 1) ∧
    n ≤ cols * cols ∧ (∀ k, n ≤ k * k → cols ≤ k) ∧ n ≤ rws * cols ∧ (∀ r, n ≤ r * cols → rws ≤ r) := by
  obtain ⟨r, h1, h2, h3, h4⟩ := grid_none n hn
  have hs := side_spec n
  have hc : 0 < side n := by
    rcases Nat.eq_zero_or_pos (side n) with h | h
    · have := hs.1; rw [h] at this; omega
    · exact h
  refine ⟨r, side n, ?_, hs.1, hs.2, h2, ?_⟩
  · unfold layout
    rw [h1]
    simp only
    rw [← List.map_take, List.take_range, min_eq_left hm, Int.toNat_natCast]
    have := panels_reading (side n) hc r m 0 (by omega) (List.replicate r 0) (by simp) (by intro k hk; simp [List.getD_eq_getElem?_getD, hk])
    simp only [Nat.zero_add] at this
    rw [this]
  · intro q hq
    by_contra hlt
    have : q ≤ r - 1 := by omega
    have := Nat.mul_le_mul_right (side n) this
    omega

/-! ## Given rows -/

theorem panels_spec (cols : ℕ) (R : ℕ) (rows : List ℤ) (hr : ∀ r ∈ rows, 1 ≤ r ∧ r ≤ R) (counts : List ℕ) (hl : counts.length = R) :
    panels cols counts rows = .ok (rows.mapIdx fun i r => ((counts.getD (r - 1).toNat 0 + (rows.take i).count r : ℕ) : ℤ) + (r - 1) * cols + 1) := by
  induction rows generalizing counts with
  | nil => rfl
  | cons a rows ih =>
    obtain ⟨a1, a2⟩ := hr a (by simp)
    have hp : pyIndex counts.length (a - 1) = some (a - 1).toNat := by
      unfold pyIndex; rw [if_pos (by omega), if_pos (by omega)]
    simp only [panels, hp]
    rw [ih (fun r h => hr r (List.mem_cons_of_mem _ h)) _ (by simp [hl])]
    simp only [List.mapIdx_cons, List.take_zero, List.count_nil, Nat.add_zero]
    congr 2
    apply List.ext_getElem?
    intro i
    simp only [List.getElem?_mapIdx]
    cases hi : rows[i]? with
    | none => rfl
    | some r =>
      obtain ⟨r1, r2⟩ := hr r (List.mem_cons_of_mem _ (List.mem_of_getElem? hi))
      simp only [Option.map_some, List.take_succ_cons, List.count_cons, Option.some.injEq]
      by_cases h : a = r
      · subst h
        rw [List.getD_eq_getElem?_getD, List.getElem?_set_self (by omega)]
        simp only [Option.getD_some, beq_self_eq_true, if_true]
        push_cast; ring
      · rw [List.getD_eq_getElem?_getD, List.getElem?_set_ne (by omega), ← List.getD_eq_getElem?_getD]
        simp [h]

theorem foldl_max (l : List ℤ) (a : ℤ) : a ≤ l.foldl max a ∧ ∀ x ∈ l, x ≤ l.foldl max a := by
  induction l generalizing a with
  | nil => simp
  | cons b l ih =>
    obtain ⟨h1, h2⟩ := ih (max a b)
    simp only [List.foldl_cons, List.mem_cons]
    exact ⟨le_trans (le_max_left _ _) h1, by rintro x (rfl | hx); exacts [le_trans (le_max_right _ _) h1, h2 x hx]⟩

theorem foldl_maxN (l : List ℕ) (a : ℕ) : a ≤ l.foldl max a ∧ ∀ x ∈ l, x ≤ l.foldl max a := by
  induction l generalizing a with
  | nil => simp
  | cons b l ih =>
    obtain ⟨h1, h2⟩ := ih (max a b)
    simp only [List.foldl_cons, List.mem_cons]
    exact ⟨le_trans (le_max_left _ _) h1, by rintro x (rfl | hx); exacts [le_trans (le_max_right _ _) h1, h2 x hx]⟩

theorem count_le_most (l : List ℤ) (r : ℤ) (h : r ∈ l) : l.count r ≤ most l :=
  (foldl_maxN _ 0).2 _ (List.mem_map_of_mem h)

/-- C204: with an array of row numbers from 1 on, every object is in its row: object i, in row r, is in column (number of earlier objects of this row), counted
from 0, which is less than the number of columns; so no two objects share a panel, and the panels are on the grid. -/
theorem given_rows (n m : ℕ) (rows : List ℤ) (hne : rows ≠ []) (hr : ∀ r ∈ rows, 1 ≤ r) (hm : rows.length ≤ m) :
    ∃ (rws : ℤ) (cols : ℕ) (ps : List ℤ), layout n m (.ints rows) = .ok (rws, cols, ps) ∧ ps.length = rows.length ∧
      (∀ i r, rows[i]? = some r → ps[i]? = some ((r - 1) * cols + (rows.take i).count r + 1) ∧ (rows.take i).count r < cols ∧ r ≤ rws) ∧ ps.Nodup := by
  obtain ⟨a, l, rfl⟩ := List.exists_cons_of_ne_nil hne
  have hmax := foldl_max l a
  have hR : ∀ r ∈ a :: l, 1 ≤ r ∧ r ≤ ((l.foldl max a).toNat : ℕ) := by
    intro r h
    have h1 := hr r h
    have h2 : r ≤ l.foldl max a := by
      rcases List.mem_cons.1 h with rfl | h
      · exact hmax.1
      · exact hmax.2 r h
    exact ⟨h1, by omega⟩
  have hps := panels_spec (most (a :: l)) (l.foldl max a).toNat (a :: l) hR (List.replicate (l.foldl max a).toNat 0) (by simp)
  refine ⟨l.foldl max a, most (a :: l), (a :: l).mapIdx (fun i r => (((List.replicate (l.foldl max a).toNat 0).getD (r - 1).toNat 0 +
    ((a :: l).take i).count r : ℕ) : ℤ) + (r - 1) * (most (a :: l) : ℕ) + 1), ?_, ?_, ?_, ?_⟩
  · unfold layout grid
    simp only [List.take_of_length_le hm, hps]
  · simp
  · intro i r hi
    have hmem := List.mem_of_getElem? hi
    obtain ⟨h1, h2⟩ := hR r hmem
    refine ⟨?_, ?_, by
      rcases List.mem_cons.1 hmem with rfl | h
      · exact hmax.1
      · exact hmax.2 r h⟩
    · rw [List.getElem?_mapIdx, hi]
      simp only [Option.map_some, Option.some.injEq]
      have : (List.replicate (l.foldl max a).toNat 0).getD (r - 1).toNat 0 = 0 := by
        simp only [List.getD_eq_getElem?_getD, List.getElem?_replicate]; split_ifs <;> rfl
      rw [this]
      push_cast; ring
    · refine lt_of_lt_of_le ?_ (count_le_most _ r hmem)
      have hlt := (List.getElem?_eq_some_iff.1 hi).1
      have he := (List.getElem?_eq_some_iff.1 hi).2
      have hsplit : (a :: l) = (a :: l).take i ++ r :: (a :: l).drop (i + 1) := by
        rw [← he, ← List.drop_eq_getElem_cons hlt, List.take_append_drop]
      have := congrArg (List.count r) hsplit
      rw [List.count_append, List.count_cons_self] at this
      omega
  · rw [List.nodup_iff_getElem?_ne_getElem?]
    intro i j hij hj heq
    rw [List.length_mapIdx] at hj
    have hi : i < (a :: l).length := by omega
    obtain ⟨ri, hri⟩ : ∃ r, (a :: l)[i]? = some r := ⟨_, List.getElem?_eq_getElem hi⟩
    obtain ⟨rj, hrj⟩ : ∃ r, (a :: l)[j]? = some r := ⟨_, List.getElem?_eq_getElem hj⟩
    have cnt : ∀ k r, (a :: l)[k]? = some r → ((a :: l).take k).count r < most (a :: l) := by
      intro i r hi
      refine lt_of_lt_of_le ?_ (count_le_most _ r (List.mem_of_getElem? hi))
      have hlt := (List.getElem?_eq_some_iff.1 hi).1
      have he := (List.getElem?_eq_some_iff.1 hi).2
      have hsplit : (a :: l) = (a :: l).take i ++ r :: (a :: l).drop (i + 1) := by
        rw [← he, ← List.drop_eq_getElem_cons hlt, List.take_append_drop]
      have := congrArg (List.count r) hsplit
      rw [List.count_append, List.count_cons_self] at this
      omega
    have c1 := cnt i ri hri
    have c2 := cnt j rj hrj
    have z : ∀ r : ℤ, (List.replicate (l.foldl max a).toNat 0).getD (r - 1).toNat 0 = 0 := by
      intro r; simp only [List.getD_eq_getElem?_getD, List.getElem?_replicate]; split_ifs <;> rfl
    rw [List.getElem?_mapIdx, List.getElem?_mapIdx, hri, hrj] at heq
    simp only [Option.map_some, Option.some.injEq, z, Nat.zero_add] at heq
    set M := most (a :: l)
    have hrr : ri = rj := by
      rcases lt_trichotomy ri rj with h | h | h
      · exfalso
        have : (ri - 1 + 1) * (M : ℤ) ≤ (rj - 1) * M := by apply mul_le_mul_of_nonneg_right <;> omega
        have c1' : ((((a :: l).take i).count ri : ℕ) : ℤ) < M := by exact_mod_cast c1
        have : (0 : ℤ) ≤ ((((a :: l).take j).count rj : ℕ) : ℤ) := by positivity
        linarith
      · exact h
      · exfalso
        have : (rj - 1 + 1) * (M : ℤ) ≤ (ri - 1) * M := by apply mul_le_mul_of_nonneg_right <;> omega
        have c2' : ((((a :: l).take j).count rj : ℕ) : ℤ) < M := by exact_mod_cast c2
        have : (0 : ℤ) ≤ ((((a :: l).take i).count ri : ℕ) : ℤ) := by positivity
        linarith
    subst hrr
    have hcc : ((a :: l).take i).count ri = ((a :: l).take j).count ri := by
      have : ((((a :: l).take i).count ri : ℕ) : ℤ) = ((((a :: l).take j).count ri : ℕ) : ℤ) := by linarith
      exact_mod_cast this
    have hsub : ((a :: l).take (i + 1)).count ri ≤ ((a :: l).take j).count ri := by
      apply List.Sublist.count_le
      exact List.take_sublist_take_left (by omega)
    rw [List.take_succ, hri] at hsub
    simp at hsub
    omega

/-- C204: a scalar, a list, a tuple or floats as `row` always fail. -/
theorem other_rows (n m : ℕ) : layout n m .list = .error .attribute ∧ layout n m .floats = .error .type ∧ (0 < n → layout n m .scalar = .error .type) := by
  refine ⟨rfl, rfl, fun h => ?_⟩
  simp [layout, grid, Nat.pos_iff_ne_zero.1 h]

/-! ## Images -/

theorem loadAll_spec {K : Type} [DecidableEq K] (l : List K) (h : List K) :
    (loadAll h l).2 = h ++ (loadAll h l).1 ∧ (loadAll h l).1.Nodup ∧ (∀ x ∈ (loadAll h l).1, x ∉ h ∧ x ∈ l) ∧ ∀ x ∈ l, x ∈ (loadAll h l).2 := by
  induction l generalizing h with
  | nil => simp [loadAll]
  | cons i l ih =>
    unfold loadAll
    split_ifs with hi
    · obtain ⟨h1, h2, h3, h4⟩ := ih h
      refine ⟨h1, h2, fun x hx => ⟨(h3 x hx).1, List.mem_cons_of_mem _ (h3 x hx).2⟩, fun x hx => ?_⟩
      rcases List.mem_cons.1 hx with rfl | hx
      · rw [h1]; simp [hi]
      · exact h4 x hx
    · obtain ⟨h1, h2, h3, h4⟩ := ih (h ++ [i])
      simp only
      refine ⟨by rw [h1]; simp, ?_, ?_, ?_⟩
      · rw [List.nodup_cons]
        exact ⟨fun hx => (h3 i hx).1 (by simp), h2⟩
      · intro x hx
        rcases List.mem_cons.1 hx with rfl | hx
        · exact ⟨hi, by simp⟩
        · have := h3 x hx
          exact ⟨fun hxh => this.1 (by simp [hxh]), List.mem_cons_of_mem _ this.2⟩
      · intro x hx
        rcases List.mem_cons.1 hx with rfl | hx
        · rw [h1]; simp
        · exact h4 x hx

/-- C204: every image that the dictionary lacks is loaded, once; nothing else is; the dictionary keeps what it had. -/
theorem images_once {K : Type} [DecidableEq K] (l h : List K) :
    (loadAll h l).1.Nodup ∧ (∀ x, x ∈ (loadAll h l).1 ↔ x ∈ l ∧ x ∉ h) ∧ (loadAll h l).2 = h ++ (loadAll h l).1 := by
  obtain ⟨h1, h2, h3, h4⟩ := loadAll_spec l h
  refine ⟨h2, fun x => ⟨fun hx => ⟨(h3 x hx).2, (h3 x hx).1⟩, fun ⟨hx, hn⟩ => ?_⟩, h1⟩
  have := h4 x hx
  rw [h1, List.mem_append] at this
  exact this.resolve_left hn

/-- Five objects make a grid of two rows and three columns; rows given as 2, 1, 2. -/
example : (match layout 5 5 .none with | .ok r => decide (r = (2, 3, [1, 2, 3, 4, 5])) | .error _ => false) = true := by decide +kernel

example : layout 3 3 (.ints [2, 1, 2]) = .ok (2, 2, [3, 1, 4]) := rfl

/-- Two objects of an image share one load; an image already there is not loaded. -/
example : loadAll ["b"] ["a", "b", "a"] = (["a"], ["b", "a"]) := by decide

end Verif.Mosaic
