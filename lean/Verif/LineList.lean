import Mathlib.Algebra.Order.Field.Basic
import Mathlib.Algebra.Order.Group.Abs
import Mathlib.Data.List.Sort
import Mathlib.Data.List.Nodup
import Mathlib.Tactic.Linarith

/-!
# Line lists (astropysics/spec.py 1741-1850)

`load_line_list` for a sequence of features (the reading of files is not modelled: a line of one column always raises an
IndexError there, spec.py 1786-1787).
-/

namespace Verif.LineList

variable {K : Type} [Field K] [LinearOrder K] [IsStrictOrderedRing K]

/-- A `KnownFeature`: its position and whatever else it carries. -/
structure Feature (K : Type) where
  loc : K
  name : String
deriving DecidableEq, Repr

/-- The `ondup` argument. -/
inductive OnDup
  | raise | warn | remove | ignore | bad
deriving DecidableEq, Repr

inductive Err
  | index | value
deriving DecidableEq, Repr

/-- spec.py 1815-1816: the indices within `tol` of feature `i`. -/
def dups (tol : K) (locs : List K) (i : Nat) : List Nat :=
  (List.range locs.length).filter (fun j => decide (|locs.getD j 0 - locs.getD i 0| ≤ tol))

/-- spec.py 1810-1820: the loop over the features (here over the indices still to come), with `ignores`; the result is `dupset`.
(`i` itself is among its duplicates unless `tol` is negative.) -/
def scan (tol : K) (locs : List K) : List Nat → List Nat → List (List Nat)
  | [], _ => []
  | i :: is, ig =>
    if i ∈ ig then scan tol locs is ig
    else if (dups tol locs i).length > 1 then dups tol locs i :: scan tol locs is (ig ++ dups tol locs i)
    else scan tol locs is ig

/-- The whole loop. -/
def dupSets (tol : K) (locs : List K) : List (List Nat) := scan tol locs (List.range locs.length) []

/-- spec.py 1822-1836, `torem.extend(ds); del torem[-1]`; `ord` is the order in which a set is iterated. -/
def toRemove (ord : List Nat → List Nat) (sets : List (List Nat)) : List Nat := sets.flatMap (fun d => (ord d).dropLast)

/-- `del kfs[i]` for each `i`. -/
def delAll {α : Type} : List α → List Nat → Except Err (List α)
  | l, [] => .ok l
  | l, i :: is => if i < l.length then delAll (l.eraseIdx i) is else .error .index

/-- spec.py 1838-1839: `for i in sorted(torem,reverse=True): del kfs[i]`. -/
def delSorted {α : Type} (l : List α) (idx : List Nat) : Except Err (List α) :=
  delAll l (idx.insertionSort (· ≥ ·))

/-- spec.py 1841-1845. -/
def sortBy (sort : Int) (l : List (Feature K)) : List (Feature K) :=
  if sort = 0 then l
  else if sort > 0 then l.insertionSort (fun a b => a.loc ≤ b.loc)
  else l.insertionSort (fun a b => -a.loc ≤ -b.loc)

/-- `load_line_list(kfs, tol=tol, ondup=ondup, sort=sort)`, spec.py 1741-1847. -/
def loadLineList (ord : List Nat → List Nat) (tol : Option K) (ondup : OnDup) (sort : Int) (kfs : List (Feature K)) :
    Except Err (List (Feature K)) :=
  let sets := dupSets (tol.getD 0) (kfs.map (·.loc))
  match ondup with
  | .raise => if sets = [] then .ok (sortBy sort kfs) else .error .index
  | .bad => if sets = [] then .ok (sortBy sort kfs) else .error .value
  | .warn | .ignore => .ok (sortBy sort kfs)
  | .remove =>
    match delSorted kfs (toRemove ord sets) with
    | .error e => .error e
    | .ok l => .ok (sortBy sort l)

/-! ## Deleting by index -/

/-- The elements whose index is not among `idx`. -/
def keep {α : Type} (idx : List Nat) (l : List α) : List α := (l.zipIdx.filter (fun p => decide (p.2 ∉ idx))).map (·.1)

theorem keep_erase {α : Type} (l : List α) (i : Nat) (is : List Nat) (hi : i < l.length) (h : ∀ j ∈ is, j < i) :
    keep is (l.eraseIdx i) = keep (i :: is) l := by
  have key : ∀ (m : List α) (k : Nat), (∀ j ∈ is, j < k) →
      (m.zipIdx k).filter (fun p => decide (p.2 ∉ is)) = m.zipIdx k := by
    intro m k hk
    rw [List.filter_eq_self]
    intro p hp
    have := List.le_snd_of_mem_zipIdx hp
    simp only [decide_eq_true_eq]
    intro hm
    have := hk _ hm
    omega
  have e1 : l.eraseIdx i = l.take i ++ l.drop (i + 1) := List.eraseIdx_eq_take_drop_succ l i
  have e2 : l = l.take i ++ l[i] :: l.drop (i + 1) := by
    rw [← List.drop_eq_getElem_cons hi, List.take_append_drop]
  unfold keep
  conv_rhs => rw [e2]
  rw [e1, List.zipIdx_append, List.zipIdx_append, List.filter_append, List.filter_append, List.map_append, List.map_append]
  have hl : (l.take i).length = i := by simp; omega
  congr 1
  · congr 1
    apply List.filter_congr
    intro p hp
    have := List.snd_lt_of_mem_zipIdx hp
    simp only [hl] at this
    have hne : p.2 ≠ i := by omega
    simp [hne]
  · simp only [hl, Nat.zero_add, List.zipIdx_cons]
    rw [key _ i (by simpa using h)]
    rw [List.filter_cons_of_neg (by simp)]
    rw [show (List.zipIdx (l.drop (i + 1)) (i + 1)).filter (fun p => decide (p.2 ∉ i :: is)) = List.zipIdx (l.drop (i + 1)) (i + 1) from ?_]
    · rw [List.zipIdx_map_fst, List.zipIdx_map_fst]
    · rw [List.filter_eq_self]
      intro p hp
      have := List.le_snd_of_mem_zipIdx hp
      simp only [decide_eq_true_eq, List.mem_cons, not_or]
      refine ⟨by omega, fun hm => ?_⟩
      have := h _ hm
      omega

theorem delAll_keep {α : Type} (is : List Nat) : ∀ (l : List α), is.Pairwise (· > ·) → (∀ j ∈ is, j < l.length) →
    delAll l is = .ok (keep is l) := by
  induction is with
  | nil =>
    intro l _ _
    simp [delAll, keep]
  | cons i is ih =>
    intro l hp hl
    rw [List.pairwise_cons] at hp
    have hi := hl i (by simp)
    simp only [delAll, hi, if_true]
    rw [ih (l.eraseIdx i) hp.2, keep_erase l i is hi (fun j hj => hp.1 j hj)]
    intro j hj
    have := hp.1 j hj
    rw [List.length_eraseIdx_of_lt hi]; omega

theorem delSorted_keep {α : Type} (l : List α) (idx : List Nat) (hn : idx.Nodup) (hl : ∀ j ∈ idx, j < l.length) :
    delSorted l idx = .ok (keep idx l) := by
  unfold delSorted
  have hp : (idx.insertionSort (· ≥ ·)).Perm idx := List.perm_insertionSort _ idx
  have hs : (idx.insertionSort (· ≥ ·)).Pairwise (· ≥ ·) := List.pairwise_insertionSort _ idx
  have hn' := hp.nodup_iff.2 hn
  have hgt : (idx.insertionSort (· ≥ ·)).Pairwise (· > ·) := by
    rw [List.nodup_iff_pairwise_ne] at hn'
    refine (hs.and hn').imp ?_
    rintro a b ⟨h1, h2⟩
    omega
  rw [delAll_keep _ l hgt (fun j hj => hl j (hp.mem_iff.1 hj))]
  congr 1
  unfold keep
  congr 1
  apply List.filter_congr
  intro p _
  simp [hp.mem_iff]

/-! ## The duplicate sets for exact matches -/

theorem mem_dups {tol : K} {locs : List K} {i j : Nat} :
    j ∈ dups tol locs i ↔ j < locs.length ∧ |locs.getD j 0 - locs.getD i 0| ≤ tol := by
  simp [dups]

theorem mem_dups_zero {locs : List K} {i j : Nat} : j ∈ dups 0 locs i ↔ j < locs.length ∧ locs.getD j 0 = locs.getD i 0 := by
  rw [mem_dups]
  simp only [and_congr_right_iff]
  intro _
  rw [abs_nonpos_iff, sub_eq_zero]

theorem dups_nodup (tol : K) (locs : List K) (i : Nat) : (dups tol locs i).Nodup := List.nodup_range.filter _

theorem dups_congr {locs : List K} {i i' : Nat} (h : locs.getD i 0 = locs.getD i' 0) (tol : K) : dups tol locs i = dups tol locs i' := by
  unfold dups; rw [h]

theorem scan_zero (locs : List K) (is : List Nat) : ∀ (ig : List Nat), (∀ i ∈ is, i < locs.length) →
    (∀ j ∈ ig, ∀ j', j' < locs.length → locs.getD j' 0 = locs.getD j 0 → j' ∈ ig) →
    (∀ d ∈ scan 0 locs is ig, ∃ i, i < locs.length ∧ i ∉ ig ∧ d = dups 0 locs i ∧ 1 < d.length) ∧
    (scan 0 locs is ig).Pairwise (fun d d' => ∀ j ∈ d, j ∉ d') ∧
    (∀ i ∈ is, i ∉ ig → 1 < (dups 0 locs i).length → dups 0 locs i ∈ scan 0 locs is ig) := by
  induction is with
  | nil => intro ig _ _; simp [scan]
  | cons i is ih =>
    intro ig hlt hcl
    have hlt' : ∀ j ∈ is, j < locs.length := fun j hj => hlt j (by simp [hj])
    unfold scan
    by_cases hi : i ∈ ig
    · simp only [hi, if_true]
      obtain ⟨h1, h2, h3⟩ := ih ig hlt' hcl
      refine ⟨h1, h2, ?_⟩
      intro j hj hjg hlen
      rcases List.mem_cons.1 hj with rfl | hj
      · exact absurd hi hjg
      · exact h3 j hj hjg hlen
    · simp only [hi, if_false]
      by_cases hlen : (dups 0 locs i).length > 1
      · simp only [hlen, if_true]
        have hcl' : ∀ j ∈ ig ++ dups 0 locs i, ∀ j', j' < locs.length → locs.getD j' 0 = locs.getD j 0 → j' ∈ ig ++ dups 0 locs i := by
          intro j hj j' hj' he
          rw [List.mem_append] at hj ⊢
          rcases hj with hj | hj
          · exact Or.inl (hcl j hj j' hj' he)
          · rw [mem_dups_zero] at hj ⊢; exact Or.inr ⟨hj', he.trans hj.2⟩
        obtain ⟨h1, h2, h3⟩ := ih _ hlt' hcl'
        refine ⟨?_, ?_, ?_⟩
        · intro d hd
          rcases List.mem_cons.1 hd with rfl | hd
          · exact ⟨i, hlt i (by simp), hi, rfl, hlen⟩
          · obtain ⟨i', a, b, c, e⟩ := h1 d hd
            exact ⟨i', a, fun h => b (by simp [h]), c, e⟩
        · rw [List.pairwise_cons]
          refine ⟨?_, h2⟩
          intro d hd j hj hjd
          obtain ⟨i', a, b, c, e⟩ := h1 d hd
          subst c
          rw [mem_dups_zero] at hj hjd
          apply b
          rw [List.mem_append, mem_dups_zero]
          exact Or.inr ⟨a, hjd.2.symm.trans hj.2⟩
        · intro j hj hjg hl
          rcases List.mem_cons.1 hj with rfl | hj
          · simp
          · by_cases hji : j ∈ dups 0 locs i
            · rw [mem_dups_zero] at hji
              rw [dups_congr hji.2]; simp
            · exact List.mem_cons_of_mem _ (h3 j hj (by simp [hjg, hji]) hl)
      · simp only [hlen, if_false]
        obtain ⟨h1, h2, h3⟩ := ih ig hlt' hcl
        refine ⟨h1, h2, ?_⟩
        intro j hj hjg hl
        rcases List.mem_cons.1 hj with rfl | hj
        · exact absurd hl hlen
        · exact h3 j hj hjg hl

theorem dupSets_zero (locs : List K) :
    (∀ d ∈ dupSets 0 locs, ∃ i, i < locs.length ∧ d = dups 0 locs i ∧ 1 < d.length) ∧
    (dupSets 0 locs).Pairwise (fun d d' => ∀ j ∈ d, j ∉ d') ∧
    (∀ i < locs.length, 1 < (dups 0 locs i).length → dups 0 locs i ∈ dupSets 0 locs) := by
  obtain ⟨h1, h2, h3⟩ := scan_zero locs (List.range locs.length) [] (by simp) (by simp)
  refine ⟨fun d hd => ?_, h2, fun i hi h => h3 i (by simpa using hi) (by simp) h⟩
  obtain ⟨i, a, _, c, e⟩ := h1 d hd
  exact ⟨i, a, c, e⟩

theorem dropLast_last {l : List Nat} (hn : l.Nodup) {a : Nat} (ha : a ∈ l) : a ∉ l.dropLast ↔ l.getLast? = some a := by
  have hne : l ≠ [] := List.ne_nil_of_mem ha
  have hl := List.dropLast_append_getLast hne
  rw [List.getLast?_eq_some_getLast hne]
  constructor
  · intro h
    rw [← hl, List.mem_append] at ha
    rcases ha with ha | ha
    · exact absurd ha h
    · simp at ha; rw [ha]
  · intro h hd
    simp only [Option.some.injEq] at h
    rw [← hl, List.nodup_append] at hn
    exact hn.2.2 a hd _ (by simp) h.symm

/-- What is removed for exact matches: every index of the list that shares its location with another one, but one per location (the last of
the set in the order of its iteration). -/
theorem toRemove_zero (ord : List Nat → List Nat) (hord : ∀ d, (ord d).Perm d) (locs : List K) :
    (toRemove ord (dupSets 0 locs)).Nodup ∧ (∀ i ∈ toRemove ord (dupSets 0 locs), i < locs.length) ∧
    ∀ i < locs.length, i ∉ toRemove ord (dupSets 0 locs) ↔ (ord (dups 0 locs i)).getLast? = some i ∨ (dups 0 locs i).length ≤ 1 := by
  obtain ⟨h1, h2, h3⟩ := dupSets_zero locs
  refine ⟨?_, ?_, ?_⟩
  · unfold toRemove
    rw [List.nodup_flatMap]
    constructor
    · intro d hd
      obtain ⟨i, _, rfl, _⟩ := h1 d hd
      exact (List.dropLast_sublist _).nodup ((hord _).nodup_iff.2 (dups_nodup 0 locs i))
    · refine h2.imp ?_
      intro d d' h j hj hj'
      exact h j ((hord d).mem_iff.1 (List.dropLast_subset _ hj)) ((hord d').mem_iff.1 (List.dropLast_subset _ hj'))
  · intro j hj
    unfold toRemove at hj
    rw [List.mem_flatMap] at hj
    obtain ⟨d, hd, hj⟩ := hj
    obtain ⟨i, _, rfl, _⟩ := h1 d hd
    have := (hord _).mem_iff.1 (List.dropLast_subset _ hj)
    exact (mem_dups_zero.1 this).1
  · intro i hi
    have hmem : i ∈ dups 0 locs i := mem_dups_zero.2 ⟨hi, rfl⟩
    have hmem' : i ∈ ord (dups 0 locs i) := (hord _).mem_iff.2 hmem
    have hnd := (hord _).nodup_iff.2 (dups_nodup 0 locs i)
    have hex : i ∈ toRemove ord (dupSets 0 locs) ↔ 1 < (dups 0 locs i).length ∧ i ∈ (ord (dups 0 locs i)).dropLast := by
      unfold toRemove
      rw [List.mem_flatMap]
      constructor
      · rintro ⟨d, hd, hj⟩
        obtain ⟨i', _, rfl, hl⟩ := h1 d hd
        have := (hord _).mem_iff.1 (List.dropLast_subset _ hj)
        have he := (mem_dups_zero.1 this).2
        rw [dups_congr he]
        exact ⟨hl, hj⟩
      · rintro ⟨hl, hj⟩
        exact ⟨_, h3 i hi hl, hj⟩
    rw [hex, not_and_or, dropLast_last hnd hmem']
    constructor
    · rintro (h | h)
      · exact Or.inr (by omega)
      · exact Or.inl h
    · rintro (h | h)
      · exact Or.inr h
      · exact Or.inl (by omega)

/-! ## Properties (C72) -/

theorem sortBy_perm (sort : Int) (l : List (Feature K)) : (sortBy sort l).Perm l := by
  unfold sortBy
  split
  · exact List.Perm.refl _
  · split <;> exact List.perm_insertionSort _ _

/-- C72: the returned list is ordered as asked: increasing for a positive, decreasing for a negative `sort`, left alone for 0. -/
theorem sortBy_sorted (sort : Int) (l : List (Feature K)) :
    (0 < sort → ((sortBy sort l).map (·.loc)).Pairwise (· ≤ ·)) ∧ (sort < 0 → ((sortBy sort l).map (·.loc)).Pairwise (· ≥ ·)) ∧
    (sort = 0 → sortBy sort l = l) := by
  refine ⟨?_, ?_, fun h => by simp [sortBy, h]⟩
  · intro h
    have h0 : ¬ sort = 0 := by omega
    unfold sortBy
    rw [if_neg h0, if_pos h, List.pairwise_map]
    haveI : Std.Total (fun a b : Feature K => a.loc ≤ b.loc) := ⟨fun a b => le_total _ _⟩
    haveI : IsTrans (Feature K) (fun a b => a.loc ≤ b.loc) := ⟨fun a b c h1 h2 => le_trans h1 h2⟩
    exact List.pairwise_insertionSort (fun a b : Feature K => a.loc ≤ b.loc) l
  · intro h
    have h0 : ¬ sort = 0 := by omega
    have h1 : ¬ sort > 0 := by omega
    unfold sortBy
    rw [if_neg h0, if_neg h1, List.pairwise_map]
    haveI : Std.Total (fun a b : Feature K => -a.loc ≤ -b.loc) := ⟨fun a b => le_total _ _⟩
    haveI : IsTrans (Feature K) (fun a b => -a.loc ≤ -b.loc) := ⟨fun a b c h1 h2 => le_trans h1 h2⟩
    exact (List.pairwise_insertionSort (fun a b : Feature K => -a.loc ≤ -b.loc) l).imp (fun h => neg_le_neg_iff.1 h)

theorem getD_loc (kfs : List (Feature K)) (i : Nat) (h : i < kfs.length) : (kfs.map (·.loc)).getD i 0 = (kfs[i]).loc := by
  simp [List.getD, h]

/-- Two indices with the same location make a duplicate set. -/
theorem two_le_dups {tol : K} {locs : List K} {i j : Nat} (h : i ≠ j) (hi : i ∈ dups tol locs i) (hj : j ∈ dups tol locs i) :
    1 < (dups tol locs i).length := by
  by_contra hlen
  have hl : (dups tol locs i).length ≤ 1 := by omega
  match hd : dups tol locs i, hl with
  | [], _ => rw [hd] at hi; simp at hi
  | [a], _ => rw [hd] at hi hj; simp at hi hj; exact h (hi.trans hj.symm)
  | _ :: _ :: _, hl => simp at hl

theorem scan_nil_iff (tol : K) (locs : List K) (is : List Nat) :
    ∀ ig, (∀ i ∈ is, i ∉ ig) → (scan tol locs is ig = [] ↔ ∀ i ∈ is, (dups tol locs i).length ≤ 1) := by
  induction is with
  | nil => intro ig _; simp [scan]
  | cons i is ih =>
    intro ig h
    have hi : i ∉ ig := h i (by simp)
    have h' : ∀ j ∈ is, j ∉ ig := fun j hj => h j (by simp [hj])
    unfold scan
    simp only [hi, if_false]
    by_cases hl : (dups tol locs i).length > 1
    · simp only [hl, if_true, List.mem_cons, forall_eq_or_imp]
      constructor
      · intro h; cases h
      · rintro ⟨h, _⟩; omega
    · simp only [hl, if_false, List.mem_cons, forall_eq_or_imp, ih ig h']
      constructor
      · intro hh; exact ⟨by omega, hh⟩
      · exact fun hh => hh.2

/-- C72: with ondup='raise' (tolerance not negative) an IndexError is raised exactly if two features of the list are within the tolerance of each
other; otherwise all features are returned. -/
theorem raise_iff (ord : List Nat → List Nat) (tol : Option K) (ht : 0 ≤ tol.getD 0) (sort : Int) (kfs : List (Feature K)) :
    (loadLineList ord tol .raise sort kfs = .error .index ↔
      ∃ i j, ∃ (hi : i < kfs.length) (hj : j < kfs.length), i ≠ j ∧ |kfs[i].loc - kfs[j].loc| ≤ tol.getD 0) ∧
    (∀ l, loadLineList ord tol .raise sort kfs = .ok l → l.Perm kfs) := by
  have key : dupSets (tol.getD 0) (kfs.map (·.loc)) = [] ↔
      ¬ ∃ i j, ∃ (hi : i < kfs.length) (hj : j < kfs.length), i ≠ j ∧ |kfs[i].loc - kfs[j].loc| ≤ tol.getD 0 := by
    unfold dupSets
    rw [scan_nil_iff _ _ _ _ (by simp)]
    constructor
    · rintro h ⟨i, j, hi, hj, hne, hd⟩
      have := h j (by simpa using hj)
      have h1 : j ∈ dups (tol.getD 0) (kfs.map (·.loc)) j := by
        rw [mem_dups]; exact ⟨by simpa using hj, by rw [sub_self, abs_zero]; exact ht⟩
      have h2 : i ∈ dups (tol.getD 0) (kfs.map (·.loc)) j := by
        rw [mem_dups]; exact ⟨by simpa using hi, by rw [getD_loc _ _ hi, getD_loc _ _ hj]; exact hd⟩
      have := two_le_dups (Ne.symm hne) h1 h2
      omega
    · intro h i hi
      by_contra hl
      apply h
      simp only [List.length_map, List.mem_range] at hi
      have hl : 1 < (dups (tol.getD 0) (kfs.map (·.loc)) i).length := by omega
      -- a duplicate other than `i`
      have : ∃ j ∈ dups (tol.getD 0) (kfs.map (·.loc)) i, j ≠ i := by
        by_contra hno
        push Not at hno
        have hn := dups_nodup (tol.getD 0) (kfs.map (·.loc)) i
        match hd : dups (tol.getD 0) (kfs.map (·.loc)) i, hl with
        | [], _ => rw [hd] at hl; simp at hl
        | [_], _ => rw [hd] at hl; simp at hl
        | a :: b :: _, _ =>
          rw [hd] at hn hno
          have := hno a (by simp)
          have := hno b (by simp)
          simp_all
      obtain ⟨j, hj, hne⟩ := this
      rw [mem_dups] at hj
      have hjl : j < kfs.length := by simpa using hj.1
      refine ⟨j, i, hjl, hi, hne, ?_⟩
      rw [← getD_loc _ _ hi, ← getD_loc _ _ hjl]; exact hj.2
  constructor
  · unfold loadLineList
    simp only
    split
    · rename_i h
      exact ⟨(fun hh => by cases hh), fun hh => absurd hh (key.1 h)⟩
    · rename_i h
      constructor
      · intro _; by_contra hh; exact h (key.2 hh)
      · intro _; rfl
  · intro l h
    unfold loadLineList at h
    simp only at h
    split at h
    · simp only [Except.ok.injEq] at h; subst h; exact sortBy_perm _ _
    · cases h

/-- C72: warning about or ignoring duplicates returns every feature. -/
theorem warn_keeps_all (ord : List Nat → List Nat) (tol : Option K) (sort : Int) (kfs : List (Feature K)) :
    ∃ l l', loadLineList ord tol .warn sort kfs = .ok l ∧ loadLineList ord tol .ignore sort kfs = .ok l' ∧ l.Perm kfs ∧ l'.Perm kfs :=
  ⟨_, _, rfl, rfl, sortBy_perm _ _, sortBy_perm _ _⟩

theorem mem_keep {α : Type} {idx : List Nat} {l : List α} {a : α} : a ∈ keep idx l ↔ ∃ i, ∃ h : i < l.length, i ∉ idx ∧ l[i] = a := by
  unfold keep
  rw [List.mem_map]
  constructor
  · rintro ⟨p, hp, rfl⟩
    rw [List.mem_filter] at hp
    obtain ⟨hp, hq⟩ := hp
    obtain ⟨i, hi, rfl⟩ := List.mem_iff_getElem.1 hp
    simp only [List.length_zipIdx] at hi
    simp only [List.getElem_zipIdx, Nat.zero_add, decide_eq_true_eq] at hq ⊢
    exact ⟨i, hi, hq, rfl⟩
  · rintro ⟨i, hi, hn, rfl⟩
    refine ⟨(l[i], i), ?_, rfl⟩
    rw [List.mem_filter]
    refine ⟨?_, by simpa using hn⟩
    rw [List.mem_iff_getElem]
    exact ⟨i, by simpa using hi, by simp⟩

theorem keep_sublist {α : Type} (idx : List Nat) (l : List α) : (keep idx l).Sublist l := by
  unfold keep
  have h := (List.filter_sublist (p := fun p : α × Nat => decide (p.2 ∉ idx)) (l := l.zipIdx)).map (·.1)
  rwa [List.zipIdx_map_fst] at h

/-- C72: removing exact duplicates never fails; it returns features of the list, in their order before sorting, with pairwise different
locations, and exactly the locations of the list, whatever order sets are iterated in. -/
theorem remove_exact (ord : List Nat → List Nat) (hord : ∀ d, (ord d).Perm d) (sort : Int) (kfs : List (Feature K)) :
    ∃ kept, loadLineList ord none .remove sort kfs = .ok (sortBy sort kept) ∧ kept.Sublist kfs ∧ (kept.map (·.loc)).Nodup ∧
      ∀ x, x ∈ kept.map (·.loc) ↔ x ∈ kfs.map (·.loc) := by
  obtain ⟨h1, h2, h3⟩ := toRemove_zero ord hord (kfs.map (·.loc))
  have hd := delSorted_keep kfs _ h1 (fun j hj => by simpa using h2 j hj)
  refine ⟨keep (toRemove ord (dupSets 0 (kfs.map (·.loc)))) kfs, by simp only [loadLineList, Option.getD_none, hd], keep_sublist _ _, ?_, ?_⟩
  · -- different locations
    have hlen : ∀ i, i < kfs.length → i < (kfs.map (·.loc)).length := fun i hi => by simpa using hi
    unfold keep
    rw [List.map_map, List.nodup_iff_pairwise_ne, List.pairwise_map]
    have hz : (kfs.zipIdx.filter (fun p => decide (p.2 ∉ toRemove ord (dupSets 0 (kfs.map (·.loc)))))).Pairwise
        (fun p q => p.2 ≠ q.2) := by
      apply List.Pairwise.filter
      have : (kfs.zipIdx.map (·.2)).Nodup := by rw [List.zipIdx_map_snd]; exact List.nodup_range'
      rwa [List.nodup_iff_pairwise_ne, List.pairwise_map] at this
    refine hz.imp_of_mem ?_
    intro p q hp hq hne
    rw [List.mem_filter] at hp hq
    obtain ⟨hp, hp'⟩ := hp
    obtain ⟨hq, hq'⟩ := hq
    obtain ⟨i, hi, rfl⟩ := List.mem_iff_getElem.1 hp
    obtain ⟨j, hj, rfl⟩ := List.mem_iff_getElem.1 hq
    simp only [List.length_zipIdx] at hi hj
    simp only [List.getElem_zipIdx, Nat.zero_add, decide_eq_true_eq, ne_eq, Function.comp] at *
    intro he
    rw [h3 i (hlen i hi)] at hp'
    rw [h3 j (hlen j hj)] at hq'
    have he' : (kfs.map (·.loc)).getD i 0 = (kfs.map (·.loc)).getD j 0 := by rw [getD_loc _ _ hi, getD_loc _ _ hj, he]
    have hi1 : i ∈ dups 0 (kfs.map (·.loc)) i := mem_dups_zero.2 ⟨hlen i hi, rfl⟩
    have hj1 : j ∈ dups 0 (kfs.map (·.loc)) i := mem_dups_zero.2 ⟨hlen j hj, he'.symm⟩
    have hl := two_le_dups hne hi1 hj1
    rw [← dups_congr he'] at hq'
    rcases hp' with hp' | hp'
    · rcases hq' with hq' | hq'
      · rw [hp'] at hq'; exact hne (Option.some.inj hq')
      · omega
    · omega
  · intro x
    rw [List.mem_map, List.mem_map]
    constructor
    · rintro ⟨a, ha, rfl⟩; exact ⟨a, (keep_sublist _ _).subset ha, rfl⟩
    · rintro ⟨a, ha, rfl⟩
      obtain ⟨i, hi, rfl⟩ := List.mem_iff_getElem.1 ha
      have hi' : i < (kfs.map (·.loc)).length := by simpa using hi
      by_cases hl : (dups 0 (kfs.map (·.loc)) i).length ≤ 1
      · exact ⟨kfs[i], mem_keep.2 ⟨i, hi, (h3 i hi').2 (Or.inr hl), rfl⟩, rfl⟩
      · have hne : ord (dups 0 (kfs.map (·.loc)) i) ≠ [] := by
          intro h; have := (hord (dups 0 (kfs.map (·.loc)) i)).length_eq; rw [h] at this; simp at this; rw [← this] at hl; simp at hl
        have hm := (hord _).mem_iff.1 (List.getLast_mem hne)
        rw [mem_dups_zero] at hm
        have hjl : (ord (dups 0 (kfs.map (·.loc)) i)).getLast hne < kfs.length := by simpa using hm.1
        refine ⟨kfs[(ord (dups 0 (kfs.map (·.loc)) i)).getLast hne], mem_keep.2 ⟨_, hjl, (h3 _ hm.1).2 (Or.inl ?_), rfl⟩, ?_⟩
        · rw [dups_congr hm.2]
          exact List.getLast?_eq_some_getLast hne
        · rw [← getD_loc _ _ hjl, ← getD_loc _ _ hi]; exact hm.2

/-- C72: if sets of small integers are iterated in increasing order, the last feature of every location is the one that stays. -/
theorem remove_keeps_last (sort : Int) (kfs : List (Feature K)) :
    ∃ kept, loadLineList id none .remove sort kfs = .ok (sortBy sort kept) ∧
      ∀ a, a ∈ kept ↔ ∃ i, ∃ h : i < kfs.length, kfs[i] = a ∧ ∀ j, (hj : j < kfs.length) → i < j → kfs[j].loc ≠ a.loc := by
  obtain ⟨h1, h2, h3⟩ := toRemove_zero id (fun d => List.Perm.refl d) (kfs.map (·.loc))
  have hd := delSorted_keep kfs _ h1 (fun j hj => by simpa using h2 j hj)
  refine ⟨keep (toRemove id (dupSets 0 (kfs.map (·.loc)))) kfs, by simp only [loadLineList, Option.getD_none, hd], ?_⟩
  intro a
  rw [mem_keep]
  apply exists_congr
  intro i
  have hsorted : (dups 0 (kfs.map (·.loc)) i).Pairwise (· < ·) := List.pairwise_lt_range.filter _
  constructor
  · rintro ⟨hi, hn, rfl⟩
    have hi' : i < (kfs.map (·.loc)).length := by simpa using hi
    refine ⟨hi, rfl, ?_⟩
    intro j hj hij he
    have hi1 : i ∈ dups 0 (kfs.map (·.loc)) i := mem_dups_zero.2 ⟨hi', rfl⟩
    have hj1 : j ∈ dups 0 (kfs.map (·.loc)) i :=
      mem_dups_zero.2 ⟨by simpa using hj, by rw [getD_loc _ _ hi, getD_loc _ _ hj, he]⟩
    have hl := two_le_dups (by omega) hi1 hj1
    rcases (h3 i hi').1 hn with h | h
    · have hne : dups 0 (kfs.map (·.loc)) i ≠ [] := List.ne_nil_of_mem hi1
      have hlast := List.getLast?_eq_some_getLast hne
      rw [id, hlast, Option.some.injEq] at h
      have hm := hj1
      rw [← List.dropLast_append_getLast hne, List.mem_append] at hm
      rcases hm with hm | hm
      · rw [← List.dropLast_append_getLast hne, List.pairwise_append] at hsorted
        have := hsorted.2.2 j hm _ (List.mem_singleton.2 rfl)
        rw [h] at this; omega
      · simp only [List.mem_singleton] at hm; rw [h] at hm; omega
    · omega
  · rintro ⟨hi, rfl, hlast⟩
    have hi' : i < (kfs.map (·.loc)).length := by simpa using hi
    refine ⟨hi, (h3 i hi').2 (Or.inl ?_), rfl⟩
    have hi1 : i ∈ dups 0 (kfs.map (·.loc)) i := mem_dups_zero.2 ⟨hi', rfl⟩
    have hne : dups 0 (kfs.map (·.loc)) i ≠ [] := List.ne_nil_of_mem hi1
    rw [id, List.getLast?_eq_some_getLast hne]
    congr 1
    by_contra hc
    have hm := List.getLast_mem hne
    have hm' := mem_dups_zero.1 hm
    have hjl : (dups 0 (kfs.map (·.loc)) i).getLast hne < kfs.length := by simpa using hm'.1
    have hlt : i < (dups 0 (kfs.map (·.loc)) i).getLast hne := by
      have hi2 := hi1
      rw [← List.dropLast_append_getLast hne, List.mem_append] at hi2
      rcases hi2 with h | h
      · rw [← List.dropLast_append_getLast hne, List.pairwise_append] at hsorted
        exact hsorted.2.2 i h _ (List.mem_singleton.2 rfl)
      · simp only [List.mem_singleton] at h; exact absurd h.symm hc
    refine hlast _ hjl hlt ?_
    rw [← getD_loc _ _ hjl, ← getD_loc _ _ hi]; exact hm'.2

/-- C72 fails with a tolerance: groups overlap, an index is deleted twice, and features disappear with everything near them: here lines at
0, 2, 1, -1, 3 with tolerance 1 leave only 3, although -1 and 0 are far from it. -/
theorem remove_with_tolerance_loses :
    loadLineList id (some (1 : ℚ)) .remove 1 [⟨0, "a"⟩, ⟨2, "b"⟩, ⟨1, "c"⟩, ⟨-1, "d"⟩, ⟨3, "e"⟩] = .ok [⟨3, "e"⟩] := by
  decide +kernel

/-- C72: a misspelt `ondup` is noticed only if there are duplicates. -/
theorem bad_ondup (ord : List Nat → List Nat) (tol : Option K) (sort : Int) (kfs : List (Feature K)) :
    loadLineList ord tol .bad sort kfs = .error .value ↔ loadLineList ord tol .raise sort kfs = .error .index := by
  unfold loadLineList
  simp only
  split <;> simp

/-- Two lines at one place: the last one named stays. -/
example : loadLineList id (none : Option ℚ) .remove 1 [⟨5, "a"⟩, ⟨2, "b"⟩, ⟨5, "c"⟩] = .ok [⟨2, "b"⟩, ⟨5, "c"⟩] := by decide +kernel

end Verif.LineList
