import Mathlib.Data.Rat.Lemmas
import Mathlib.Algebra.Order.Field.Rat
import Mathlib.Data.List.Sort
import Mathlib.Data.Nat.Sqrt
import Mathlib.Tactic.Linarith
import Mathlib.Tactic.SplitIfs

/-!
# Data behind plots (astropysics/plotting.py 390-398, 910-1126) (C181, C182)

`cumulative_plot` with `doplot=False`, the subsets of `split_histograms`, the line of `plot_histogram`, `square_subplot_dims`.  Floats are rational numbers; numpy integers and
floats are not distinguished.
-/

namespace Verif.CumPlot

inductive Err
  | index
  /-- numpy is given None as a number. -/
  | noNumber
  | value
  deriving DecidableEq

abbrev Pts := List (ℚ × ℕ)

/-- `x.sort()`. -/
def sorted (data : List ℚ) : List ℚ := data.insertionSort (· ≤ ·)

/-- `x` and `y` before the edges, plotting.py 956-961. -/
def start (data : List ℚ) (nlt : Bool) : Pts := (if nlt then sorted data else (sorted data).reverse).zipIdx

/-- The lower edge, plotting.py 963-968. -/
def lower (nlt : Bool) (lo hi : Option ℚ) (p : Pts) : Except Err Pts :=
  match lo with
  | none => .ok p
  | some l => match (if nlt then some l else hi) with
    | none => .error .noNumber
    | some e => .ok ((e, 0) :: p.filter (fun q => decide (l < q.1)))

/-- The upper edge, plotting.py 969-974. -/
def upper (nlt : Bool) (lo hi : Option ℚ) (p : Pts) : Except Err Pts :=
  match hi with
  | none => .ok p
  | some h => match (if nlt then some h else lo) with
    | none => .error .noNumber
    | some e => match (p.filter (fun q => decide (q.1 < h))).getLast? with
      | none => .error .index
      | some z => .ok (p.filter (fun q => decide (q.1 < h)) ++ [(e, z.2 + 1)])

/-- The values returned; `none` for nan. -/
abbrev Curve := List (ℚ × Option ℚ)

/-- `frac`, plotting.py 976-979: `none` for False; 0/0 is nan (the last count is the largest). -/
def fraction (frac : Option ℚ) (p : Pts) : Except Err Curve :=
  match frac with
  | none => .ok (p.map fun q => (q.1, some (q.2 : ℚ)))
  | some f => match p.getLast? with
    | none => .error .index
    | some z => .ok (p.map fun q => (q.1, if z.2 = 0 then none else some (q.2 * f / z.2)))

/-- `cumulative_plot`, plotting.py 910-1025, with `doplot=False`. -/
def cumulative (data : List ℚ) (nlt : Bool) (frac lo hi : Option ℚ) : Except Err Curve :=
  match lower nlt lo hi (start data nlt) with
  | .error e => .error e
  | .ok p => match upper nlt lo hi p with
    | .error e => .error e
    | .ok q => fraction frac q

/-! ## C181 -/

theorem sorted_perm (data : List ℚ) : (sorted data).Perm data := List.perm_insertionSort _ _

theorem sorted_pairwise (data : List ℚ) : (sorted data).Pairwise (· ≤ ·) := List.pairwise_insertionSort _ _

/-- On a list whose first elements fail and whose last ones pass, a filter keeps the numbers. -/
theorem filter_tail (f : ℚ → Bool) : ∀ (L : List ℚ) (n : ℕ), L.Pairwise (fun a b => f a = true → f b = true) →
    (L.zipIdx n).filter (fun q => f q.1) = (L.filter f).zipIdx (n + (L.filter (fun a => !f a)).length)
  | [], _, _ => rfl
  | a :: L, n, h => by
    rw [List.pairwise_cons] at h
    by_cases ha : f a = true
    · have hall : ∀ b ∈ L, f b = true := fun b hb => h.1 b hb ha
      have e1 : L.filter f = L := List.filter_eq_self.2 hall
      have e2 : L.filter (fun a => !f a) = [] := by rw [List.filter_eq_nil_iff]; intro b hb; simp [hall b hb]
      have e3 : (L.zipIdx (n + 1)).filter (fun q => f q.1) = L.zipIdx (n + 1) := by
        rw [List.filter_eq_self]
        rintro ⟨b, i⟩ hb
        have := List.fst_mem_of_mem_zipIdx hb
        exact hall _ this
      simp [List.zipIdx_cons, ha, e1, e2, e3]
    · have := filter_tail f L (n + 1) h.2
      simp only [Bool.not_eq_true] at ha
      simp only [List.zipIdx_cons, List.filter_cons, ha, this, Bool.false_eq_true, if_false, Bool.not_false, if_true, List.length_cons]
      congr 1; omega

/-- On a list whose first elements pass and whose last ones fail, likewise. -/
theorem filter_head (f : ℚ → Bool) : ∀ (L : List ℚ) (n : ℕ), L.Pairwise (fun a b => f b = true → f a = true) →
    (L.zipIdx n).filter (fun q => f q.1) = (L.filter f).zipIdx n
  | [], _, _ => rfl
  | a :: L, n, h => by
    rw [List.pairwise_cons] at h
    by_cases ha : f a = true
    · simp [List.zipIdx_cons, ha, filter_head f L (n + 1) h.2]
    · have hall : ∀ b ∈ L, ¬ f b = true := fun b hb hf => ha (h.1 b hb hf)
      have e1 : L.filter f = [] := List.filter_eq_nil_iff.2 hall
      have e3 : (L.zipIdx (n + 1)).filter (fun q => f q.1) = [] := by
        rw [List.filter_eq_nil_iff]
        rintro ⟨b, i⟩ hb
        exact hall _ (List.fst_mem_of_mem_zipIdx hb)
      simp only [Bool.not_eq_true] at ha
      simp [List.zipIdx_cons, ha, e1, e3]

/-- How many data satisfy a condition. -/
def count (data : List ℚ) (f : ℚ → Bool) : ℕ := (data.filter f).length

theorem count_sorted (data : List ℚ) (f : ℚ → Bool) : ((sorted data).filter f).length = count data f :=
  ((sorted_perm data).filter f).length_eq

theorem getLast?_zipIdx (L : List ℚ) (n : ℕ) (h : L ≠ []) : ∃ a, (L.zipIdx n).getLast? = some (a, n + L.length - 1) := by
  have hl : 0 < L.length := List.length_pos_iff.2 h
  refine ⟨L[L.length - 1], ?_⟩
  rw [List.getLast?_eq_getElem?, List.length_zipIdx, List.getElem?_zipIdx, List.getElem?_eq_getElem (by omega)]
  simp; omega

/-- The numbers with a count as rational. -/
def curve (L : List ℚ) (n : ℕ) : Curve := (L.zipIdx n).map fun q => (q.1, some (q.2 : ℚ))

/-- C181.  N(<x) without edges: the sorted data with 0, 1, 2, ... -/
theorem less_than (data : List ℚ) : cumulative data true none none none = .ok (curve (sorted data) 0) := rfl

/-- C181.  N(>x) without edges: the data in decreasing order with 0, 1, 2, ... -/
theorem greater_than (data : List ℚ) : cumulative data false none none none = .ok (curve (sorted data).reverse 0) := rfl

/-- C181.  N(<x) between edges: the data between them in order with consecutive numbers that begin with the number of data *at or below the lower edge*, the lower edge with
0 before, the upper edge with the next number after. -/
theorem less_between (data : List ℚ) (l h : ℚ) (hlh : l < h) :
    cumulative data true none (some l) (some h) = .ok ((l, some 0) :: curve ((sorted data).filter (fun x => decide (l < x ∧ x < h))) (count data (fun x => decide (x ≤ l))) ++
      [(h, some (if count data (fun x => decide (l < x ∧ x < h)) = 0 then 1 else (count data (fun x => decide (x < h)) : ℚ)))]) ∧
    cumulative data true none (some l) none = .ok ((l, some 0) :: curve ((sorted data).filter (fun x => decide (l < x))) (count data (fun x => decide (x ≤ l)))) ∧
    (∀ h', cumulative data true none none (some h') = if count data (fun x => decide (x < h')) = 0 then .error .index else
      .ok (curve ((sorted data).filter (fun x => decide (x < h'))) 0 ++ [(h', some (count data (fun x => decide (x < h')) : ℚ))])) := by
  have hs := sorted_pairwise data
  have e1 : (start data true).filter (fun q => decide (l < q.1)) = ((sorted data).filter (fun x => decide (l < x))).zipIdx (count data (fun x => decide (x ≤ l))) := by
    have := filter_tail (fun x => decide (l < x)) (sorted data) 0 (hs.imp (by intro a b hab; simp only [decide_eq_true_eq]; intro h; exact lt_of_lt_of_le h hab))
    rw [Nat.zero_add] at this
    have e : ((sorted data).filter (fun a => !decide (l < a))).length = count data (fun x => decide (x ≤ l)) := by
      rw [count_sorted]
      congr 1; funext x
      by_cases hx : x ≤ l
      · simp [hx, not_lt.2 hx]
      · simp [hx, not_le.1 hx]
    rw [e] at this
    exact this
  have up : ∀ (L : List ℚ) (n : ℕ) (h : ℚ), L.Pairwise (· ≤ ·) → (L.zipIdx n).filter (fun q => decide (q.1 < h)) = (L.filter (fun x => decide (x < h))).zipIdx n := by
    intro L n h hL
    exact filter_head (fun x => decide (x < h)) L n (hL.imp (by intro a b hab; simp only [decide_eq_true_eq]; exact lt_of_le_of_lt hab))
  refine ⟨?_, ?_, ?_⟩
  · unfold cumulative lower
    simp only [if_true, e1]
    unfold upper
    simp only [if_true, List.filter_cons, decide_eq_true hlh, up _ _ h (hs.filter _)]
    have ef : ((sorted data).filter (fun x => decide (l < x))).filter (fun x => decide (x < h)) = (sorted data).filter (fun x => decide (l < x ∧ x < h)) := by
      rw [List.filter_filter]
      congr 1; funext x
      by_cases h1 : l < x <;> by_cases h2 : x < h <;> simp [h1, h2]
    rw [ef]
    have hc : ((sorted data).filter (fun x => decide (l < x ∧ x < h))).length = count data (fun x => decide (l < x ∧ x < h)) := count_sorted _ _
    by_cases h0 : (sorted data).filter (fun x => decide (l < x ∧ x < h)) = []
    · rw [h0] at hc ⊢
      simp only [List.length_nil] at hc
      rw [if_pos hc.symm]
      simp [fraction, curve]
    · obtain ⟨a, ha⟩ := getLast?_zipIdx _ (count data (fun x => decide (x ≤ l))) h0
      have hpos : 0 < ((sorted data).filter (fun x => decide (l < x ∧ x < h))).length := List.length_pos_iff.2 h0
      rw [List.getLast?_cons, ha]
      simp only [Option.getD_some, fraction]
      have hne : count data (fun x => decide (l < x ∧ x < h)) ≠ 0 := by omega
      have hsum : count data (fun x => decide (x ≤ l)) + count data (fun x => decide (l < x ∧ x < h)) = count data (fun x => decide (x < h)) := by
        unfold count
        induction data with
        | nil => rfl
        | cons b data _ =>
          clear * - hlh
          induction (b :: data) with
          | nil => rfl
          | cons c t ih =>
            by_cases h1 : c ≤ l
            · have h2 : ¬ l < c := not_lt.2 h1
              have h3 : c < h := lt_of_le_of_lt h1 hlh
              simp only [List.filter_cons, h1, h2, h3, decide_true, if_true, false_and, decide_false, Bool.false_eq_true, if_false, List.length_cons] at ih ⊢
              omega
            · have h2 : l < c := not_le.1 h1
              by_cases h3 : c < h
              · simp only [List.filter_cons, h1, h2, h3, decide_true, if_true, and_self, decide_false, Bool.false_eq_true, if_false, List.length_cons] at ih ⊢
                omega
              · simp only [List.filter_cons, h1, h2, h3, and_false, decide_false, Bool.false_eq_true, if_false] at ih ⊢
                omega
      have hnum : count data (fun x => decide (x ≤ l)) + ((sorted data).filter (fun x => decide (l < x ∧ x < h))).length - 1 + 1 = count data (fun x => decide (x < h)) := by
        rw [hc] at hpos ⊢; omega
      rw [if_neg hne]
      simp only [if_true, curve, hnum, List.map_append, List.map_cons, List.map_nil, List.cons_append, Nat.cast_zero]
  · unfold cumulative lower
    simp only [if_true, e1]
    simp [upper, fraction, curve]
  · intro h'
    unfold cumulative lower
    simp only
    unfold upper
    simp only [if_true]
    have e0 : (start data true) = (sorted data).zipIdx 0 := rfl
    rw [e0, up _ _ h' hs]
    have hc : ((sorted data).filter (fun x => decide (x < h'))).length = count data (fun x => decide (x < h')) := count_sorted _ _
    by_cases h0 : (sorted data).filter (fun x => decide (x < h')) = []
    · rw [h0] at hc ⊢
      simp only [List.length_nil] at hc
      simp [← hc]
    · obtain ⟨a, ha⟩ := getLast?_zipIdx _ 0 h0
      have hpos : 0 < ((sorted data).filter (fun x => decide (x < h'))).length := List.length_pos_iff.2 h0
      rw [ha, if_neg (by omega)]
      have : 0 + ((sorted data).filter (fun x => decide (x < h'))).length - 1 + 1 = count data (fun x => decide (x < h')) := by omega
      simp only [fraction, curve, this, List.map_append, List.map_cons, List.map_nil]

/-- C181.  N(>x) between edges: the data between them in decreasing order with consecutive numbers that begin with the number of data *at or above the upper edge*, then the
lower edge with the next number.  IndexError if there are none; the upper edge is not in the curve.  With one edge only numpy is given None as a number. -/
theorem greater_between (data : List ℚ) (l h : ℚ) :
    cumulative data false none (some l) (some h) = (if count data (fun x => decide (l < x ∧ x < h)) = 0 then .error .index else
      .ok (curve ((sorted data).reverse.filter (fun x => decide (l < x ∧ x < h))) (count data (fun x => decide (l < x ∧ h ≤ x))) ++
        [(l, some ((count data (fun x => decide (l < x ∧ h ≤ x)) + count data (fun x => decide (l < x ∧ x < h)) : ℕ) : ℚ))])) ∧
    cumulative data false none (some l) none = .error .noNumber ∧ cumulative data false none none (some h) = .error .noNumber := by
  refine ⟨?_, rfl, rfl⟩
  have hr : (sorted data).reverse.Pairwise (fun a b => b ≤ a) := List.pairwise_reverse.2 (sorted_pairwise data)
  have e1 : (start data false).filter (fun q => decide (l < q.1)) = ((sorted data).reverse.filter (fun x => decide (l < x))).zipIdx 0 :=
    filter_head (fun x => decide (l < x)) _ 0 (hr.imp (by intro a b hab; simp only [decide_eq_true_eq]; intro h; exact lt_of_lt_of_le h hab))
  have cr : ∀ f, ((sorted data).reverse.filter f).length = count data f := by
    intro f; rw [List.filter_reverse, List.length_reverse]; exact count_sorted data f
  unfold cumulative lower
  simp only [Bool.false_eq_true, if_false, e1]
  unfold upper
  simp only [Bool.false_eq_true, if_false, List.filter_cons, decide_eq_false (lt_irrefl h)]
  have e2 := filter_tail (fun x => decide (x < h)) ((sorted data).reverse.filter (fun x => decide (l < x))) 0
    ((hr.filter _).imp (by intro a b hab; simp only [decide_eq_true_eq]; intro h; exact lt_of_le_of_lt hab h))
  have ef : ((sorted data).reverse.filter (fun x => decide (l < x))).filter (fun x => decide (x < h)) = (sorted data).reverse.filter (fun x => decide (l < x ∧ x < h)) := by
    rw [List.filter_filter]
    congr 1; funext x
    by_cases h1 : l < x <;> by_cases h2 : x < h <;> simp [h1, h2]
  have eg : (((sorted data).reverse.filter (fun x => decide (l < x))).filter (fun x => !decide (x < h))).length = count data (fun x => decide (l < x ∧ h ≤ x)) := by
    rw [List.filter_filter, ← cr]
    congr 2; funext x
    by_cases h1 : l < x <;> by_cases h2 : x < h <;> simp [h1, h2, not_le.2, not_lt.1]
  rw [e2, ef, eg, Nat.zero_add]
  have hc := cr (fun x => decide (l < x ∧ x < h))
  by_cases h0 : (sorted data).reverse.filter (fun x => decide (l < x ∧ x < h)) = []
  · rw [h0] at hc ⊢
    simp only [List.length_nil] at hc
    rw [if_pos hc.symm]
    simp
  · obtain ⟨a, ha⟩ := getLast?_zipIdx _ (count data (fun x => decide (l < x ∧ h ≤ x))) h0
    have hpos : 0 < ((sorted data).reverse.filter (fun x => decide (l < x ∧ x < h))).length := List.length_pos_iff.2 h0
    rw [ha, if_neg (by omega)]
    have hnum : count data (fun x => decide (l < x ∧ h ≤ x)) + ((sorted data).reverse.filter (fun x => decide (l < x ∧ x < h))).length - 1 + 1 =
        count data (fun x => decide (l < x ∧ h ≤ x)) + count data (fun x => decide (l < x ∧ x < h)) := by omega
    simp only [fraction, curve, hnum, List.map_append, List.map_cons, List.map_nil]

/-- C181.  What the numbers mean: of different data, the number of a datum in sorted order is that of the data less than it, and in decreasing order that of the data greater
than it. -/
theorem numbers_count (data : List ℚ) (hn : data.Nodup) (x : ℚ) (i : ℕ) :
    ((x, i) ∈ (sorted data).zipIdx ↔ x ∈ data ∧ i = count data (fun y => decide (y < x))) ∧
    ((x, i) ∈ (sorted data).reverse.zipIdx ↔ x ∈ data ∧ i = count data (fun y => decide (x < y))) := by
  have hlt : (sorted data).Pairwise (· < ·) := by
    have h1 := sorted_pairwise data
    have h2 : (sorted data).Pairwise (· ≠ ·) := ((sorted_perm data).nodup_iff).2 hn
    exact h1.imp₂ (fun a b hab hne => lt_of_le_of_ne hab hne) h2
  have key : ∀ (R : ℚ → ℚ → Prop) [DecidableRel R] (L : List ℚ) (n : ℕ), L.Pairwise R → (∀ a, ¬ R a a) → (∀ a b, R a b → ¬ R b a) →
      ((x, i) ∈ L.zipIdx n ↔ x ∈ L ∧ i = n + (L.filter (fun y => decide (R y x))).length) := by
    intro R _ L
    induction L with
    | nil => intro n _ _ _; simp
    | cons a L ih =>
      intro n hp hir has
      rw [List.pairwise_cons] at hp
      rw [List.zipIdx_cons, List.mem_cons, ih (n + 1) hp.2 hir has]
      simp only [Prod.mk.injEq, List.mem_cons, List.filter_cons]
      constructor
      · rintro (⟨rfl, rfl⟩ | ⟨h1, h2⟩)
        · have : L.filter (fun y => decide (R y x)) = [] := by
            rw [List.filter_eq_nil_iff]; intro b hb; simp [has _ _ (hp.1 b hb)]
          simp [hir, this]
        · have : R a x := hp.1 x h1
          simp [this, h1]; omega
      · rintro ⟨rfl | h1, h2⟩
        · have : L.filter (fun y => decide (R y x)) = [] := by
            rw [List.filter_eq_nil_iff]; intro b hb; simp [has _ _ (hp.1 b hb)]
          simp [hir, this] at h2
          exact Or.inl ⟨rfl, h2⟩
        · have : R a x := hp.1 x h1
          simp [this] at h2
          exact Or.inr ⟨h1, by omega⟩
  constructor
  · rw [key (· < ·) (sorted data) 0 hlt (fun a => lt_irrefl a) (fun a b h => not_lt.2 h.le), Nat.zero_add, (sorted_perm data).mem_iff, count_sorted]
  · rw [key (fun a b => b < a) (sorted data).reverse 0 (List.pairwise_reverse.2 hlt) (fun a => lt_irrefl a) (fun a b h => not_lt.2 h.le), Nat.zero_add, List.mem_reverse,
      (sorted_perm data).mem_iff, List.filter_reverse, List.length_reverse, count_sorted]

/-- C181.  With a fraction every number is multiplied by it and divided by the last one, so that the curve ends there; if the last number is 0 all are nan. -/
theorem fraction_exact (data : List ℚ) (nlt : Bool) (lo hi : Option ℚ) (f : ℚ) (c : Curve) (h : cumulative data nlt none lo hi = .ok c) :
    (c = [] → cumulative data nlt (some f) lo hi = .error .index) ∧
    (∀ x n, c.getLast? = some (x, some n) → n ≠ 0 →
      cumulative data nlt (some f) lo hi = .ok (c.map fun q => (q.1, q.2.map fun y => y * f / n)) ∧
      ∀ c', cumulative data nlt (some f) lo hi = .ok c' → c'.getLast? = some (x, some f)) ∧
    (∀ x, c.getLast? = some (x, some 0) → cumulative data nlt (some f) lo hi = .ok (c.map fun q => (q.1, none))) := by
  unfold cumulative at h ⊢
  cases h1 : lower nlt lo hi (start data nlt) with
  | error e => rw [h1] at h; simp at h
  | ok p =>
    rw [h1] at h
    dsimp only at h ⊢
    cases h2 : upper nlt lo hi p with
    | error e => rw [h2] at h; simp at h
    | ok q =>
      rw [h2] at h
      simp only [fraction, Except.ok.injEq] at h ⊢
      subst h
      cases hl : q.getLast? with
      | none =>
        have : q = [] := List.getLast?_eq_none_iff.1 hl
        subst this
        simp
      | some z =>
        obtain ⟨a, k⟩ := z
        refine ⟨?_, ?_, ?_⟩
        · intro h0; rw [List.map_eq_nil_iff] at h0; rw [h0] at hl; simp at hl
        · intro x n hx hn
          rw [List.getLast?_map, hl] at hx
          simp only [Option.map_some, Option.some.injEq, Prod.mk.injEq] at hx
          obtain ⟨rfl, rfl⟩ := hx
          have hk : k ≠ 0 := by rintro rfl; simp at hn
          have e : (q.map fun r => (r.1, if k = 0 then none else some ((r.2 : ℚ) * f / k))) =
              ((q.map fun r => (r.1, some (r.2 : ℚ))).map fun r => (r.1, r.2.map fun y => y * f / (k : ℚ))) := by
            rw [List.map_map]; apply List.map_congr_left; intro r _; simp [hk]
          refine ⟨by rw [← e], ?_⟩
          intro c' hc'
          simp only [Except.ok.injEq] at hc'
          rw [← hc', List.getLast?_map, hl]
          simp only [Option.map_some, hk, if_false, Option.some.injEq, Prod.mk.injEq, true_and]
          exact mul_div_cancel_left₀ f hn
        · intro x hx
          rw [List.getLast?_map, hl] at hx
          simp only [Option.map_some, Option.some.injEq, Prod.mk.injEq, Nat.cast_eq_zero] at hx
          obtain ⟨rfl, rfl⟩ := hx
          dsimp only
          rw [List.map_map]
          congr 1

/-- C181 (defects).  Data below the lower edge are not ignored: the curve jumps from 0 to their number.  Between edges with no data the curve rises to 1.  The curve without
edges ends one below the number of data. -/
theorem edges_count : cumulative [5, 1, 2, 3] true none (some (3 / 2)) (some 4) = .ok [(3 / 2, some 0), (2, some 1), (3, some 2), (4, some 3)] ∧
    cumulative [5, 1] true none (some 2) (some 4) = .ok [(2, some 0), (4, some 1)] ∧
    cumulative [3, 1, 2] true (some 1) none none = .ok [(1, some 0), (2, some (1 / 2)), (3, some 1)] ∧
    cumulative [5, 1, 2, 3] false none (some (3 / 2)) (some 4) = .ok [(3, some 1), (2, some 2), (3 / 2, some 3)] := by
  decide +kernel

/-! ## Panels, subsets, steps -/

/-- The loop of `square_subplot_dims`, plotting.py 395-397; `none` if it does not end. -/
def rows (n ncols : ℕ) : ℕ → ℕ → Option ℕ
  | 0, _ => none
  | fuel + 1, r => if ncols * r < n then rows n ncols fuel (r + 1) else some r

/-- `np.ceil(np.sqrt(n))` without rounding errors. -/
def ceilSqrt (n : ℕ) : ℕ := if n.sqrt * n.sqrt = n then n.sqrt else n.sqrt + 1

/-- `square_subplot_dims`, plotting.py 390-398; every round adds a row, so that n + 1 rounds are enough. -/
def dims (n : ℕ) : Option (ℕ × ℕ) := (rows n (ceilSqrt n) (n + 1) 0).map fun r => (r, ceilSqrt n)

theorem rows_spec (n c : ℕ) (hc : 0 < c ∨ n = 0) : ∀ fuel r, n < fuel + r → (r = 0 ∨ c * (r - 1) < n) →
    ∃ m, rows n c fuel r = some m ∧ n ≤ c * m ∧ (m = 0 ∨ c * (m - 1) < n)
  | 0, r, h, h' => by
    rcases h' with rfl | h'
    · omega
    · exfalso
      have : r - 1 ≤ c * (r - 1) := Nat.le_mul_of_pos_left _ (by omega)
      omega
  | fuel + 1, r, h, h' => by
    rw [rows]
    split_ifs with h1
    · exact rows_spec n c hc fuel (r + 1) (by omega) (Or.inr (by simpa using h1))
    · exact ⟨r, rfl, by omega, h'⟩

/-- C182.  `square_subplot_dims`: enough panels, one row less is not enough, and as many rows as columns or one less; the number of columns is the least whose square is
enough. -/
theorem dims_exact (n : ℕ) : ∃ r c, dims n = some (r, c) ∧ n ≤ r * c ∧ (0 < n → (r - 1) * c < n) ∧ (r = c ∨ r + 1 = c) ∧ n ≤ c * c ∧ (0 < n → (c - 1) * (c - 1) < n) := by
  have hle := Nat.sqrt_le n
  have hlt := Nat.lt_succ_sqrt n
  have hc : (n ≤ ceilSqrt n * ceilSqrt n) ∧ (0 < n → (ceilSqrt n - 1) * (ceilSqrt n - 1) < n) := by
    unfold ceilSqrt
    split_ifs with h
    · refine ⟨by omega, fun h0 => ?_⟩
      have : 0 < n.sqrt := by rcases Nat.eq_zero_or_pos n.sqrt with h1 | h1; · rw [h1] at h; omega
                              · exact h1
      calc (n.sqrt - 1) * (n.sqrt - 1) < n.sqrt * n.sqrt := Nat.mul_self_lt_mul_self (by omega)
        _ = n := h
    · refine ⟨by simpa using hlt.le, fun _ => ?_⟩
      simp only [Nat.add_sub_cancel]
      omega
  have hpos : 0 < ceilSqrt n ∨ n = 0 := by
    rcases Nat.eq_zero_or_pos (ceilSqrt n) with h | h
    · right; rw [h] at hc; omega
    · exact Or.inl h
  obtain ⟨m, h1, h2, h3⟩ := rows_spec n (ceilSqrt n) hpos (n + 1) 0 (by omega) (Or.inl rfl)
  set c := ceilSqrt n with hcdef
  refine ⟨m, c, by rw [dims, h1]; rfl, by rwa [Nat.mul_comm], ?_, ?_, hc.1, hc.2⟩
  · intro h0
    rcases h3 with h3 | h3
    · subst h3; simp at h2; omega
    · rwa [Nat.mul_comm]
  · rcases Nat.eq_zero_or_pos n with h0 | h0
    · have hm : m = 0 := by rcases h3 with h3 | h3 <;> omega
      have hc0 : c = 0 := by rw [hcdef, h0]; decide
      left; rw [hm, hc0]
    · have hcc := hc.2 h0
      obtain ⟨d, hd⟩ : ∃ d, c = d + 1 := ⟨c - 1, by rcases hpos with h | h <;> omega⟩
      have hm0 : m ≠ 0 := by rintro rfl; simp at h2; omega
      obtain ⟨e, he⟩ : ∃ e, m = e + 1 := ⟨m - 1, by omega⟩
      rcases h3 with h3 | h3
      · exact absurd h3 hm0
      have hcn := hc.1
      rw [hd] at hcc hcn h2 h3 ⊢
      rw [he] at h2 h3 ⊢
      simp only [Nat.add_sub_cancel] at hcc h3
      have hA : e ≤ d := by by_contra hh; have : (d + 1) * (d + 1) ≤ (d + 1) * e := Nat.mul_le_mul_left _ (by omega); omega
      have hB : d ≤ e + 1 := by
        by_contra hh
        have : (d + 1) * (e + 1) ≤ (d + 1) * (d - 1) := Nat.mul_le_mul_left _ (by omega)
        have h5 : (d + 1) * (d - 1) ≤ d * d := by
          obtain ⟨d', rfl⟩ : ∃ d', d = d' + 1 := ⟨d - 1, by omega⟩
          simp only [Nat.add_sub_cancel]; nlinarith
        omega
      omega

/-- The subsets of `split_histograms`, plotting.py 1066-1082, and its checks. -/
def split (vals edgevals edges : List ℚ) (colors styles : Option ℕ) : Except Err (List (List ℚ)) :=
  if edges.length < 2 then .error .value
  else if colors.any (fun n => decide (edges.length - 1 ≠ n)) then .error .value
  else if styles.any (fun n => decide (edges.length - 1 ≠ n)) then .error .value
  else if vals.length ≠ edgevals.length then .error .value
  else (edges.zip edges.tail).mapM fun p => if p.1 < p.2 then .ok (((vals.zip edgevals).filter fun v => decide (p.1 ≤ v.2 ∧ v.2 < p.2)).map (·.1)) else .error .value

theorem mapM_ok {α β : Type} (f : α → Except Err β) (g : α → β) (P : α → Prop) [DecidablePred P] (h1 : ∀ a, P a → f a = .ok (g a)) (h2 : ∀ a, ¬ P a → f a = .error .value) :
    ∀ l : List α, l.mapM f = if ∀ a ∈ l, P a then .ok (l.map g) else .error .value
  | [] => by simp; rfl
  | a :: l => by
    rw [List.mapM_cons, mapM_ok f g P h1 h2 l]
    by_cases ha : P a
    · rw [h1 a ha]
      by_cases hl : ∀ b ∈ l, P b
      · rw [if_pos hl, if_pos (by intro b hb; rcases List.mem_cons.1 hb with rfl | hb; exacts [ha, hl b hb])]; rfl
      · rw [if_neg hl, if_neg (fun hh => hl fun b hb => hh b (List.mem_cons_of_mem _ hb))]; rfl
    · rw [h2 a ha, if_neg (c := ∀ b ∈ a :: l, P b) (fun hh => ha (hh a List.mem_cons_self))]; rfl

/-- C182.  `split_histograms` succeeds exactly if the edges are at least two and increase, colors and styles (if given) are one per subset, and every value has an edge value;
the subset `i` has, in order, the values whose edge value is at least edge `i` and below edge `i + 1`. -/
theorem split_exact (vals edgevals edges : List ℚ) (colors styles : Option ℕ) :
    (2 ≤ edges.length ∧ edges.Pairwise (· < ·) ∧ (∀ n, colors = some n → n + 1 = edges.length) ∧ (∀ n, styles = some n → n + 1 = edges.length) ∧
        vals.length = edgevals.length →
      split vals edgevals edges colors styles = .ok ((edges.zip edges.tail).map fun p => ((vals.zip edgevals).filter fun v => decide (p.1 ≤ v.2 ∧ v.2 < p.2)).map (·.1))) ∧
    (¬ (2 ≤ edges.length ∧ edges.Pairwise (· < ·) ∧ (∀ n, colors = some n → n + 1 = edges.length) ∧ (∀ n, styles = some n → n + 1 = edges.length) ∧
        vals.length = edgevals.length) → split vals edgevals edges colors styles = .error .value) := by
  have hz : ∀ l : List ℚ, (∀ p ∈ l.zip l.tail, p.1 < p.2) ↔ l.Pairwise (· < ·) := by
    intro l
    rw [← List.isChain_iff_pairwise]
    induction l with
    | nil => simp
    | cons a l ih =>
      cases l with
      | nil => simp
      | cons b l =>
        simp only [List.tail_cons, List.zip_cons_cons, List.mem_cons, forall_eq_or_imp, List.isChain_cons_cons] at ih ⊢
        rw [← ih]
  have hm := mapM_ok (fun p : ℚ × ℚ => if p.1 < p.2 then (Except.ok (((vals.zip edgevals).filter fun v => decide (p.1 ≤ v.2 ∧ v.2 < p.2)).map (·.1)) : Except Err (List ℚ)) else .error .value)
    (fun p => ((vals.zip edgevals).filter fun v => decide (p.1 ≤ v.2 ∧ v.2 < p.2)).map (·.1)) (fun p => p.1 < p.2) (fun a h => if_pos h) (fun a h => if_neg h) (edges.zip edges.tail)
  have ha : ∀ o : Option ℕ, o.any (fun n => decide (edges.length - 1 ≠ n)) = true ↔ ¬ ∀ n, o = some n → edges.length - 1 = n := by
    intro o
    cases o <;> simp
  unfold split
  rw [hm]
  by_cases h1 : edges.length < 2
  · rw [if_pos h1]
    exact ⟨fun h => by omega, fun _ => rfl⟩
  rw [if_neg h1]
  have hsub : ∀ o : Option ℕ, (∀ n, o = some n → edges.length - 1 = n) ↔ ∀ n, o = some n → n + 1 = edges.length := by
    intro o; exact forall_congr' fun n => imp_congr_right fun _ => by omega
  by_cases h2 : ∀ n, colors = some n → edges.length - 1 = n
  · rw [if_neg (by rw [ha]; exact not_not.2 h2)]
    by_cases h3 : ∀ n, styles = some n → edges.length - 1 = n
    · rw [if_neg (by rw [ha]; exact not_not.2 h3)]
      by_cases h4 : vals.length = edgevals.length
      · rw [if_neg (not_not.2 h4)]
        by_cases h5 : ∀ p ∈ edges.zip edges.tail, p.1 < p.2
        · rw [if_pos h5]
          exact ⟨fun _ => rfl, fun h => absurd ⟨by omega, (hz _).1 h5, (hsub _).1 h2, (hsub _).1 h3, h4⟩ h⟩
        · rw [if_neg h5]
          exact ⟨fun h => absurd ((hz _).2 h.2.1) h5, fun _ => rfl⟩
      · rw [if_pos h4]
        exact ⟨fun h => absurd h.2.2.2.2 h4, fun _ => rfl⟩
    · rw [if_pos ((ha _).2 h3)]
      exact ⟨fun h => absurd ((hsub _).2 h.2.2.2.1) h3, fun _ => rfl⟩
  · rw [if_pos ((ha _).2 h2)]
    exact ⟨fun h => absurd ((hsub _).2 h.2.2.1) h2, fun _ => rfl⟩

/-- C182.  Each value is in exactly one subset if its edge value is from the first edge to below the last one, else in none. -/
theorem split_partition : ∀ (edges : List ℚ) (v : ℚ), 2 ≤ edges.length → edges.Pairwise (· < ·) →
    ((edges.zip edges.tail).filter fun p => decide (p.1 ≤ v ∧ v < p.2)).length =
      if (∃ a, edges.head? = some a ∧ a ≤ v) ∧ (∃ b, edges.getLast? = some b ∧ v < b) then 1 else 0
  | [], _, h, _ => by simp at h
  | [_], _, h, _ => by simp at h
  | [a, b], v, _, _ => by
    by_cases h1 : a ≤ v <;> by_cases h2 : v < b <;> simp [h1, h2]
  | a :: b :: c :: l, v, _, hp => by
    have ih := split_partition (b :: c :: l) v (by simp) (List.pairwise_cons.1 hp).2
    have hab : a < b := (List.pairwise_cons.1 hp).1 b (by simp)
    simp only [List.tail_cons, List.zip_cons_cons, List.filter_cons, List.head?_cons, Option.some.injEq, exists_eq_left', List.getLast?_cons_cons] at ih ⊢
    have hblast : ∀ z, (c :: l).getLast? = some z → b < z := by
      intro z hz
      have : z ∈ c :: l := List.mem_of_getLast? hz
      exact (List.pairwise_cons.1 (List.pairwise_cons.1 hp).2).1 z this
    obtain ⟨z, hz⟩ : ∃ z, (c :: l).getLast? = some z := by
      cases h : (c :: l).getLast? with
      | none => simp at h
      | some z => exact ⟨z, rfl⟩
    simp only [hz, Option.some.injEq, exists_eq_left'] at ih ⊢
    have hbz := hblast z hz
    by_cases h1 : a ≤ v
    · by_cases h2 : v < b
      · have h3 : ¬ b ≤ v := not_le.2 h2
        simp only [h3, false_and, if_false] at ih
        simp only [decide_false, Bool.false_eq_true, if_false] at ih
        have h4 : v < z := lt_trans h2 hbz
        simp only [h1, h2, h3, h4, and_self, false_and, decide_true, decide_false, if_true, Bool.false_eq_true, if_false, List.length_cons, ih]
      · have h3 : b ≤ v := not_lt.1 h2
        simp only [h3, true_and] at ih
        simp only [h1, h2, h3, and_false, true_and, decide_false, Bool.false_eq_true, if_false, ih]
    · have h3 : ¬ b ≤ v := fun h => h1 (le_trans hab.le h)
      simp only [h3, false_and, if_false, decide_false, Bool.false_eq_true] at ih
      simp only [h1, h3, false_and, decide_false, Bool.false_eq_true, if_false, ih]

/-- The points of `plot_histogram`, plotting.py 1122-1124, drawn as steps (the height at a point holds to its left). -/
def steps (nbin edges : List ℚ) : Except Err (List (ℚ × ℚ)) :=
  match edges.getLast? with
  | none => .error .index
  | some e => if edges.length + 1 = nbin.length + 2 then .ok ((edges ++ [e]).zip (0 :: nbin ++ [0])) else .error .value

/-- C182.  `plot_histogram` needs one edge more than bins; bin `i` is drawn up to edge `i + 1` at its height, the line begins and ends at 0. -/
theorem steps_exact (nbin edges : List ℚ) (he : edges ≠ []) :
    (edges.length = nbin.length + 1 → ∃ l, steps nbin edges = .ok l ∧ l.length = nbin.length + 2 ∧ (∀ i x h, edges[i + 1]? = some x → nbin[i]? = some h → l[i + 1]? = some (x, h)) ∧
      (∀ x, edges.head? = some x → l.head? = some (x, 0)) ∧ (∀ x, edges.getLast? = some x → l.getLast? = some (x, 0))) ∧
    (edges.length ≠ nbin.length + 1 → steps nbin edges = .error .value) := by
  obtain ⟨e, hl⟩ : ∃ z, edges.getLast? = some z := by
    cases h : edges.getLast? with
    | none => rw [List.getLast?_eq_none_iff] at h; exact absurd h he
    | some z => exact ⟨z, rfl⟩
  unfold steps
  rw [hl]
  dsimp only
  constructor
  · intro h
    rw [if_pos (by omega)]
    have hlen : ((edges ++ [e]).zip (0 :: nbin ++ [0])).length = nbin.length + 2 := by simp [h]
    refine ⟨_, rfl, hlen, ?_, ?_, ?_⟩
    · intro i x y h1 h2
      have hi : i < nbin.length := by
        by_contra hh
        rw [List.getElem?_eq_none (by omega)] at h2; simp at h2
      have hi1 : i + 1 < edges.length := by omega
      rw [List.getElem?_eq_getElem hi1] at h1
      rw [List.getElem?_eq_getElem hi] at h2
      rw [List.getElem?_eq_getElem (by omega)]
      simp only [Option.some.injEq] at h1 h2
      simp only [List.getElem_zip, List.cons_append, List.getElem_cons_succ, Option.some.injEq, Prod.mk.injEq]
      rw [List.getElem_append_left hi1, List.getElem_append_left hi]
      exact ⟨h1, h2⟩
    · intro x hx
      cases edges with
      | nil => exact absurd rfl he
      | cons a l => simpa using hx
    · intro x hx
      simp only [Option.some.injEq] at hx
      subst hx
      rw [List.getLast?_eq_getElem?, hlen, List.getElem?_eq_getElem (by omega)]
      simp only [List.getElem_zip, Option.some.injEq, Prod.mk.injEq]
      constructor
      · rw [List.getElem_append_right (by omega)]; simp
      · rw [List.getElem_append_right (by simp)]; simp
  · intro h
    rw [if_neg (by omega)]

theorem example_split : split [1, 2, 3, 4] [10, 20, 30, 20] [15, 20, 40] none (some 2) = .ok [[], [2, 3, 4]] ∧ dims 7 = some (3, 3) ∧ dims 5 = some (2, 3) ∧
    steps [4, 6] [0, 1, 2] = .ok [(0, 0), (1, 4), (2, 6), (2, 0)] := by decide +kernel

end Verif.CumPlot
