import Verif.LineList

/-!
# Removing spectral lines that agree within a tolerance (astropysics/spec.py 1741-1847) (C72)
-/

namespace Verif.LineList

variable {K : Type} [Field K] [LinearOrder K] [IsStrictOrderedRing K]

/-- The groups are apart: lines within the tolerance of a common line are within the tolerance of each other. -/
def Apart (tol : K) (kfs : List (Feature K)) : Prop :=
  ∀ a ∈ kfs, ∀ b ∈ kfs, ∀ c ∈ kfs, |a.loc - b.loc| ≤ tol → |b.loc - c.loc| ≤ tol → |a.loc - c.loc| ≤ tol

/-- Every line replaced by the number of the first line of its group. -/
def groupNo (tol : K) (locs : List K) : List K := (List.range locs.length).map (fun i => (((dups tol locs i).headD 0 : Nat) : K))

theorem groupNo_getD (tol : K) (locs : List K) (i : Nat) (hi : i < locs.length) :
    (groupNo tol locs).getD i 0 = (((dups tol locs i).headD 0 : Nat) : K) := by
  simp [groupNo, List.getD, hi]

theorem dups_groupNo {tol : K} (h0 : 0 ≤ tol) (kfs : List (Feature K)) (ht : Apart tol kfs) (i : Nat) (hi : i < kfs.length) :
    dups 0 (groupNo tol (kfs.map (·.loc))) i = dups tol (kfs.map (·.loc)) i := by
  have hL : (kfs.map (·.loc)).length = kfs.length := by simp
  have self : ∀ i, i < kfs.length → i ∈ dups tol (kfs.map (·.loc)) i := fun i hi => by
    rw [mem_dups]; exact ⟨by simpa using hi, by simpa using h0⟩
  have hhead : ∀ i, i < kfs.length → (dups tol (kfs.map (·.loc)) i).headD 0 ∈ dups tol (kfs.map (·.loc)) i := by
    intro i hi
    have := self i hi
    cases hd : dups tol (kfs.map (·.loc)) i with
    | nil => rw [hd] at this; simp at this
    | cons a l => simp
  have sub : ∀ i j, i < kfs.length → j < kfs.length → |(kfs.map (·.loc)).getD j 0 - (kfs.map (·.loc)).getD i 0| ≤ tol →
      dups tol (kfs.map (·.loc)) j = dups tol (kfs.map (·.loc)) i := by
    intro i j hi hj hc
    unfold dups
    apply List.filter_congr
    intro k hk
    have hk' : k < kfs.length := by simpa using hk
    rw [getD_loc _ _ hi, getD_loc _ _ hj] at hc
    rw [getD_loc _ _ hi, getD_loc _ _ hj, getD_loc _ _ hk']
    simp only [decide_eq_decide]
    constructor
    · intro h; exact ht _ (List.getElem_mem hk') _ (List.getElem_mem hj) _ (List.getElem_mem hi) h hc
    · intro h
      refine ht _ (List.getElem_mem hk') _ (List.getElem_mem hi) _ (List.getElem_mem hj) h ?_
      rwa [abs_sub_comm]
  rw [show dups 0 (groupNo tol (kfs.map (·.loc))) i = (List.range kfs.length).filter
      (fun j => decide (|(groupNo tol (kfs.map (·.loc))).getD j 0 - (groupNo tol (kfs.map (·.loc))).getD i 0| ≤ 0)) by
    unfold dups; simp [groupNo]]
  rw [show dups tol (kfs.map (·.loc)) i = (List.range kfs.length).filter
      (fun j => decide (|(kfs.map (·.loc)).getD j 0 - (kfs.map (·.loc)).getD i 0| ≤ tol)) by
    unfold dups; simp]
  apply List.filter_congr
  intro j hj
  have hj' : j < kfs.length := by simpa using hj
  rw [groupNo_getD _ _ _ (by simpa using hj'), groupNo_getD _ _ _ (by simpa using hi)]
  simp only [decide_eq_decide, abs_nonpos_iff, sub_eq_zero, Nat.cast_inj]
  constructor
  · intro h
    have hh1 := hhead j hj'
    have hh2 := hhead i hi
    rw [h] at hh1
    rw [mem_dups] at hh1 hh2
    generalize (dups tol (kfs.map (·.loc)) i).headD 0 = m at *
    have hm : m < kfs.length := by simpa using hh1.1
    have a1 := hh1.2
    have a2 := hh2.2
    rw [getD_loc _ _ hm, getD_loc _ _ hj'] at a1
    rw [getD_loc _ _ hm, getD_loc _ _ hi] at a2
    rw [getD_loc _ _ hj', getD_loc _ _ hi]
    refine ht _ (List.getElem_mem hj') _ (List.getElem_mem hm) _ (List.getElem_mem hi) ?_ a2
    rwa [abs_sub_comm]
  · intro h
    rw [sub i j hi hj' h]

theorem scan_congr (tol tol' : K) (locs locs' : List K) (is : List Nat) : ∀ ig, (∀ i ∈ is, dups tol locs i = dups tol' locs' i) →
    scan tol locs is ig = scan tol' locs' is ig := by
  induction is with
  | nil => intro ig _; rfl
  | cons i is ih =>
    intro ig h
    have hi := h i (by simp)
    have ih' := fun ig => ih ig (fun j hj => h j (by simp [hj]))
    unfold scan
    rw [hi, ih' ig, ih']

theorem dupSets_groupNo {tol : K} (h0 : 0 ≤ tol) (kfs : List (Feature K)) (ht : Apart tol kfs) :
    dupSets tol (kfs.map (·.loc)) = dupSets 0 (groupNo tol (kfs.map (·.loc))) := by
  unfold dupSets
  rw [show (groupNo tol (kfs.map (·.loc))).length = (kfs.map (·.loc)).length by simp [groupNo]]
  apply scan_congr
  intro i hi
  exact (dups_groupNo h0 kfs ht i (by simpa using hi)).symm

/-- C72: with a tolerance, if lines within the tolerance of a common line are within the tolerance of each other, removing duplicates never fails and
leaves exactly one line of every group: the lines that stay are further than the tolerance apart, and every line is within the tolerance of one that
stays. -/
theorem remove_groups (ord : List Nat → List Nat) (hord : ∀ d, (ord d).Perm d) (sort : Int) (tol : K) (h0 : 0 ≤ tol) (kfs : List (Feature K))
    (ht : Apart tol kfs) :
    ∃ kept, loadLineList ord (some tol) .remove sort kfs = .ok (sortBy sort kept) ∧ kept.Sublist kfs ∧
      kept.Pairwise (fun a b => tol < |a.loc - b.loc|) ∧ ∀ f ∈ kfs, ∃ g ∈ kept, |g.loc - f.loc| ≤ tol := by
  have hS := dupSets_groupNo h0 kfs ht
  have hlen : (groupNo tol (kfs.map (·.loc))).length = kfs.length := by simp [groupNo]
  obtain ⟨h1, h2, h3⟩ := toRemove_zero ord hord (groupNo tol (kfs.map (·.loc)))
  rw [← hS] at h1 h2 h3
  have h3' : ∀ i, i < kfs.length → (i ∉ toRemove ord (dupSets tol (kfs.map (·.loc))) ↔
      (ord (dups tol (kfs.map (·.loc)) i)).getLast? = some i ∨ (dups tol (kfs.map (·.loc)) i).length ≤ 1) := by
    intro i hi
    rw [h3 i (by omega), dups_groupNo h0 kfs ht i hi]
  have hd := delSorted_keep kfs _ h1 (fun j hj => by have := h2 j hj; omega)
  have same : ∀ i j, i < kfs.length → j < kfs.length → j ∈ dups tol (kfs.map (·.loc)) i →
      dups tol (kfs.map (·.loc)) j = dups tol (kfs.map (·.loc)) i := by
    intro i j hi hj hm
    rw [← dups_groupNo h0 kfs ht i hi] at hm ⊢
    rw [← dups_groupNo h0 kfs ht j hj]
    exact dups_congr (mem_dups_zero.1 hm).2 0
  refine ⟨keep (toRemove ord (dupSets tol (kfs.map (·.loc)))) kfs, by simp only [loadLineList, Option.getD_some, hd], keep_sublist _ _, ?_, ?_⟩
  · unfold keep
    rw [List.pairwise_map]
    have hz : (kfs.zipIdx.filter (fun p => decide (p.2 ∉ toRemove ord (dupSets tol (kfs.map (·.loc)))))).Pairwise
        (fun p q => p.2 ≠ q.2) := by
      apply List.Pairwise.filter
      have : (kfs.zipIdx.map (·.2)).Nodup := by rw [List.zipIdx_map_snd]; exact List.nodup_range'
      rwa [List.nodup_iff_pairwise_ne, List.pairwise_map] at this
    refine hz.imp_of_mem ?_
    intro p q hp hq hne
    rw [List.mem_filter] at hp hq
    obtain ⟨hp, hp'⟩ := hp
    obtain ⟨hq, hq'⟩ := hq
    obtain ⟨i, hi, rfl⟩ := List.mem_iff_getElem.1 hp
    obtain ⟨j, hj, rfl⟩ := List.mem_iff_getElem.1 hq
    simp only [List.length_zipIdx] at hi hj
    simp only [List.getElem_zipIdx, Nat.zero_add, decide_eq_true_eq, ne_eq] at *
    by_contra he
    rw [not_lt] at he
    rw [h3' i hi] at hp'
    rw [h3' j hj] at hq'
    have hi1 : i ∈ dups tol (kfs.map (·.loc)) i := mem_dups.2 ⟨by simpa using hi, by simpa using h0⟩
    have hj1 : j ∈ dups tol (kfs.map (·.loc)) i :=
      mem_dups.2 ⟨by simpa using hj, by rw [getD_loc _ _ hi, getD_loc _ _ hj, abs_sub_comm]; exact he⟩
    have hl := two_le_dups hne hi1 hj1
    rw [same i j hi hj hj1] at hq'
    rcases hp' with hp' | hp'
    · rcases hq' with hq' | hq'
      · rw [hp'] at hq'; exact hne (Option.some.inj hq')
      · omega
    · omega
  · intro f hf
    obtain ⟨i, hi, rfl⟩ := List.mem_iff_getElem.1 hf
    by_cases hl : (dups tol (kfs.map (·.loc)) i).length ≤ 1
    · exact ⟨kfs[i], mem_keep.2 ⟨i, hi, (h3' i hi).2 (Or.inr hl), rfl⟩, by simpa using h0⟩
    · have hne : ord (dups tol (kfs.map (·.loc)) i) ≠ [] := by
        intro h; have := (hord (dups tol (kfs.map (·.loc)) i)).length_eq; rw [h] at this; simp at this; rw [← this] at hl; simp at hl
      have hm := (hord _).mem_iff.1 (List.getLast_mem hne)
      have hm' := mem_dups.1 hm
      have hjl : (ord (dups tol (kfs.map (·.loc)) i)).getLast hne < kfs.length := by simpa using hm'.1
      refine ⟨kfs[(ord (dups tol (kfs.map (·.loc)) i)).getLast hne], mem_keep.2 ⟨_, hjl, (h3' _ hjl).2 (Or.inl ?_), rfl⟩, ?_⟩
      · rw [same i _ hi hjl hm]
        exact List.getLast?_eq_some_getLast hne
      · rw [← getD_loc _ _ hjl, ← getD_loc _ _ hi]; exact hm'.2

/-- Two groups a tolerance apart: the last line of each stays. -/
example : Apart (1 : ℚ) [⟨5, "a"⟩, ⟨2, "b"⟩, ⟨6, "c"⟩, ⟨11 / 2, "d"⟩] ∧
    loadLineList id (some (1 : ℚ)) .remove 1 [⟨5, "a"⟩, ⟨2, "b"⟩, ⟨6, "c"⟩, ⟨11 / 2, "d"⟩] = .ok [⟨2, "b"⟩, ⟨11 / 2, "d"⟩] := by
  constructor
  · unfold Apart; decide +kernel
  · decide +kernel

end Verif.LineList
