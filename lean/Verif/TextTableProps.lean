import Verif.TextTable
import Mathlib.Tactic.Linarith
import Mathlib.Data.List.Nodup
import Mathlib.Data.List.Perm.Basic

/-! # Text tables: theorems (C155, C156; astropysics/objcat.py 3751-4064) -/

namespace Verif.TextTable

/-! ## Specification -/

/-- The different elements of a list, in the order in which they first appear. -/
def firstSeen {α : Type} [DecidableEq α] : List α → List α
  | [] => []
  | a :: l => a :: (firstSeen l).filter (fun b => decide (b ≠ a))

/-! ## Lists -/

section
variable {α : Type} [DecidableEq α]

theorem mem_firstSeen {l : List α} {a : α} : a ∈ firstSeen l ↔ a ∈ l := by
  induction l with
  | nil => simp [firstSeen]
  | cons b l ih =>
    simp only [firstSeen, List.mem_cons, List.mem_filter, ih, decide_eq_true_eq]
    by_cases h : a = b <;> simp [h]

theorem nodup_firstSeen (l : List α) : (firstSeen l).Nodup := by
  induction l with
  | nil => simp [firstSeen]
  | cons b l ih =>
    rw [firstSeen, List.nodup_cons]
    exact ⟨by simp, ih.filter _⟩

theorem firstSeen_filter (p : α → Bool) (l : List α) : firstSeen (l.filter p) = (firstSeen l).filter p := by
  induction l with
  | nil => rfl
  | cons a l ih =>
    rw [List.filter_cons, firstSeen, List.filter_cons]
    by_cases h : p a
    · rw [if_pos h, if_pos h, firstSeen, ih, List.filter_filter, List.filter_filter]
      congr 1
      exact List.filter_congr (fun x _ => by rw [Bool.and_comm])
    · rw [if_neg h, if_neg h, ih, List.filter_filter]
      refine List.filter_congr (fun x _ => ?_)
      by_cases hx : x = a
      · subst hx; simp [h]
      · simp [hx]

theorem firstSeen_map {β : Type} [DecidableEq β] (f : α → β) : ∀ (l : List α), (∀ a ∈ l, ∀ b ∈ l, f a = f b → a = b) →
    firstSeen (l.map f) = (firstSeen l).map f
  | [], _ => rfl
  | a :: l, h => by
    rw [List.map_cons, firstSeen, firstSeen, List.map_cons, firstSeen_map f l (fun x hx y hy => h x (by simp [hx]) y (by simp [hy]))]
    congr 1
    rw [List.filter_map]
    congr 1
    refine List.filter_congr (fun x hx => ?_)
    have hx' := mem_firstSeen.1 hx
    simp only [Function.comp]
    by_cases hxa : x = a
    · simp [hxa]
    · have : f x ≠ f a := fun hf => hxa (h x (by simp [hx']) a (by simp) hf)
      simp [hxa, this]

theorem appear_eq (l : List Nat) : ∀ (acc : List Nat), appear acc l = acc ++ (firstSeen l).filter (fun c => decide (c ∉ acc)) := by
  induction l with
  | nil => intro acc; simp [appear, firstSeen]
  | cons c l ih =>
    intro acc
    rw [appear, firstSeen]
    by_cases h : c ∈ acc
    · rw [if_pos h, ih, List.filter_cons]
      simp only [h, not_true, decide_false, Bool.false_eq_true, if_false, List.filter_filter]
      congr 1
      refine List.filter_congr (fun x _ => ?_)
      by_cases hx : x = c
      · subst hx; simp [h]
      · simp [hx]
    · rw [if_neg h, ih, List.filter_cons]
      simp only [h, not_false_iff, decide_true, if_true, List.filter_filter, List.append_assoc, List.singleton_append]
      congr 2
      refine List.filter_congr (fun x _ => ?_)
      by_cases hx : x = c <;> simp [hx]

omit [DecidableEq α] in
theorem set_perm [BEq α] [LawfulBEq α] {h z : α} : ∀ {t : List α}, z ∈ t → t.Nodup → (t.set (t.idxOf z) h).Perm (h :: t.erase z)
  | a :: t, hz, hn => by
    rw [List.nodup_cons] at hn
    cases hb : a == z with
    | true =>
      have ha := eq_of_beq hb
      subst ha
      simp
    | false =>
      have ha : a ≠ z := by rintro rfl; simp at hb
      have hz' : z ∈ t := by
        rcases List.mem_cons.1 hz with h | h
        · exact absurd h.symm ha
        · exact h
      rw [List.idxOf_cons, hb, List.erase_cons_tail (by simp [hb])]
      simp only [cond_false, List.set_cons_succ]
      exact ((set_perm hz' hn.2).cons a).trans (List.Perm.swap h a _)

end

theorem noneFirst_spec {l : List Text} (hn : l.Nodup) : ∃ t, noneFirst l = noneText :: t ∧ t.Perm (l.erase noneText) := by
  unfold noneFirst
  by_cases h : noneText ∈ l
  · rw [if_pos h]
    cases l with
    | nil => simp at h
    | cons a l =>
      rw [List.nodup_cons] at hn
      by_cases ha : a = noneText
      · subst ha
        refine ⟨l, ?_, by simp⟩
        simp
      · have hz : noneText ∈ l := by
          rcases List.mem_cons.1 h with h | h
          · exact absurd h.symm ha
          · exact h
        have hb : (a == noneText) = false := by simpa using ha
        refine ⟨l.set (l.idxOf noneText) a, ?_, ?_⟩
        · rw [List.idxOf_cons, hb]; simp
        · rw [List.erase_cons_tail (by simpa using ha)]
          exact set_perm hz hn.2
  · rw [if_neg h]
    exact ⟨l, rfl, by rw [List.erase_of_not_mem h]⟩

theorem getD_range_map (l : List Nat) : (List.range l.length).map (fun i => l.getD i 0) = l := by
  apply List.ext_getElem
  · simp
  · intro i h1 h2
    simp [List.getD_eq_getElem?_getD, List.getElem?_eq_getElem h2]

/-- `np.argsort` of a permutation of `0 … n-1` is its inverse. -/
theorem argsort_inverse {l : List Nat} (hp : l.Perm (List.range l.length)) {c : Nat} (hc : c < l.length) :
    (argsort l).getD c 0 = l.idxOf c := by
  have hn : l.Nodup := hp.nodup_iff.2 List.nodup_range
  have hq : (argsort l).Perm (List.range l.length) := List.perm_insertionSort _ _
  have hql : (argsort l).length = l.length := by rw [hq.length_eq]; simp
  have hmap : ((argsort l).map (fun i => l.getD i 0)).Perm (List.range l.length) := by
    refine (hq.map _).trans ?_
    rw [getD_range_map]
    exact hp
  have hpw : (argsort l).Pairwise (fun i j => l.getD i 0 ≤ l.getD j 0) := by
    have : IsTrans Nat (fun i j => l.getD i 0 ≤ l.getD j 0) := ⟨fun a b c => Nat.le_trans⟩
    have : Std.Total (fun i j => l.getD i 0 ≤ l.getD j 0) := ⟨fun a b => Nat.le_total _ _⟩
    exact List.pairwise_insertionSort _ _
  have hsorted : ((argsort l).map (fun i => l.getD i 0)).Pairwise (· ≤ ·) := List.pairwise_map.2 hpw
  have heq : (argsort l).map (fun i => l.getD i 0) = List.range l.length := by
    refine List.Perm.eq_of_pairwise (le := fun a b => decide (a ≤ b)) ?_ ?_ ?_ hmap
    · intro a b _ _ h1 h2
      simp at h1 h2; omega
    · simpa using hsorted
    · have := @List.pairwise_le_range l.length
      simpa using this
  have hget : l.getD ((argsort l).getD c 0) 0 = c := by
    have h1 : ((argsort l).map (fun i => l.getD i 0))[c]? = some c := by
      rw [heq, List.getElem?_range hc]
    rw [List.getElem?_map] at h1
    have h2 : c < (argsort l).length := by omega
    rw [List.getElem?_eq_getElem h2] at h1
    simp only [Option.map_some, Option.some.injEq] at h1
    have h3 : (argsort l).getD c 0 = (argsort l)[c] := by
      rw [List.getD_eq_getElem?_getD, List.getElem?_eq_getElem h2]; rfl
    rw [h3]
    exact h1
  have hlt : (argsort l).getD c 0 < l.length := by
    have h2 : c < (argsort l).length := by omega
    have hm : (argsort l).getD c 0 ∈ argsort l := by
      rw [List.getD_eq_getElem?_getD, List.getElem?_eq_getElem h2]
      exact List.getElem_mem h2
    have := hq.mem_iff.1 hm
    simpa using this
  have : l[(argsort l).getD c 0] = c := by
    rw [List.getD_eq_getElem?_getD, List.getElem?_eq_getElem hlt] at hget
    exact hget
  conv => rhs; rw [← this]
  exact (List.Nodup.idxOf_getElem hn _ hlt).symm

theorem rowCodes_spec (l : List Nat) : (rowCodes l).Pairwise (· < ·) ∧ ∀ c, c ∈ rowCodes l ↔ c ∈ l ∧ c ≠ 0 := by
  have hnd : (l.dedup.insertionSort (fun a b => a ≤ b)).Nodup := (List.perm_insertionSort _ _).nodup_iff.2 (List.nodup_dedup l)
  have hle : (l.dedup.insertionSort (fun a b => a ≤ b)).Pairwise (· ≤ ·) := List.pairwise_insertionSort _ _
  have hlt : (l.dedup.insertionSort (fun a b => a ≤ b)).Pairwise (· < ·) := by
    have := hle.and hnd
    exact this.imp (fun h => Nat.lt_of_le_of_ne h.1 h.2)
  refine ⟨hlt.sublist (List.erase_sublist), fun c => ?_⟩
  rw [rowCodes, hnd.mem_erase_iff, List.mem_insertionSort, List.mem_dedup]
  tauto

/-- C155.  When some value has no source of its own (none, or derived), the objects' lists of numbers and the legend say which sources each object's
values have: the legend lists the sources in the order in which they first appear, number 0 is nobody, and an object's list is increasing and holds exactly the
numbers of its sources. -/
theorem codes_exact (rows : List (List Text)) (h : noneText ∈ (rows.map fun r => r.map clean).flatten) :
    ∃ (codes : List (List Nat)) (legend : List Text), sourceCodes rows = .ok (codes, noneText :: legend) ∧
      legend = firstSeen ((rows.map fun r => r.map clean).flatten.filter fun s => decide (s ≠ noneText)) ∧
      codes.length = rows.length ∧
      ∀ (i : Nat) (row : List Text), (rows.map fun r => r.map clean)[i]? = some row → ∃ cs, codes[i]? = some cs ∧ cs.Pairwise (· < ·) ∧
        ∀ c, c ∈ cs ↔ 1 ≤ c ∧ ∃ s ∈ row, legend[c - 1]? = some s := by
  set srcs := rows.map fun r => r.map clean with hsrcs
  set flat := srcs.flatten with hflat
  have hund : (unique flat).Nodup := (List.perm_insertionSort _ _).nodup_iff.2 (List.nodup_dedup flat)
  have humem : ∀ s, s ∈ unique flat ↔ s ∈ flat := by
    intro s
    rw [unique, List.mem_insertionSort, List.mem_dedup]
  obtain ⟨t, ht, hperm⟩ := noneFirst_spec hund
  set U := noneFirst (unique flat) with hU
  have hUnd : U.Nodup := by
    rw [ht, List.nodup_cons]
    refine ⟨fun hm => ?_, hperm.nodup_iff.2 (hund.erase _)⟩
    have := hperm.mem_iff.1 hm
    rw [hund.mem_erase_iff] at this
    exact this.1 rfl
  have hUmem : ∀ s, s ∈ U ↔ s ∈ flat := by
    intro s
    rw [ht, List.mem_cons, hperm.mem_iff, hund.mem_erase_iff, humem]
    constructor
    · rintro (rfl | h')
      · exact h
      · exact h'.2
    · intro hs
      by_cases hx : s = noneText
      · exact .inl hx
      · exact .inr ⟨hx, hs⟩
  have hinj : ∀ a ∈ flat, ∀ b ∈ flat, U.idxOf a = U.idxOf b → a = b := by
    intro a ha b hb hab
    exact (List.idxOf_inj ((hUmem a).2 ha)).1 hab
  have hU0 : U.idxOf noneText = 0 := by rw [ht]; simp
  -- the codes
  have hcodes : (srcs.map fun r => r.map fun s => U.idxOf s).flatten = flat.map fun s => U.idxOf s := by
    rw [hflat, List.map_flatten]
  have happ : appear [] ((srcs.map fun r => r.map fun s => U.idxOf s).flatten) = (firstSeen flat).map fun s => U.idxOf s := by
    rw [hcodes, appear_eq, firstSeen_map _ _ hinj]
    simp
  have hnfs : noneText ∈ firstSeen flat := mem_firstSeen.2 h
  have h0mem : 0 ∈ (firstSeen flat).map fun s => U.idxOf s := List.mem_map.2 ⟨noneText, hnfs, hU0⟩
  have herase : ((firstSeen flat).map fun s => U.idxOf s).erase 0 = ((firstSeen flat).erase noneText).map fun s => U.idxOf s := by
    have hsub : ∀ l : List Text, (∀ s ∈ l, s ∈ flat) → (l.map fun s => U.idxOf s).erase 0 = (l.erase noneText).map fun s => U.idxOf s := by
      intro l
      induction l with
      | nil => intro _; rfl
      | cons a l ih =>
        intro hl
        by_cases ha : a = noneText
        · subst ha
          simp [hU0]
        · have : U.idxOf a ≠ 0 := by
            rw [← hU0]
            exact fun hh => ha (hinj a (hl a (by simp)) noneText h hh)
          rw [List.map_cons, List.erase_cons_tail (by simpa using this), List.erase_cons_tail (by simpa using ha), List.map_cons,
            ih (fun s hs => hl s (by simp [hs]))]
    exact hsub _ (fun s hs => mem_firstSeen.1 hs)
  set legend := (firstSeen flat).erase noneText with hlegend
  have hleg : legend = firstSeen (flat.filter fun s => decide (s ≠ noneText)) := by
    rw [firstSeen_filter, hlegend, (nodup_firstSeen flat).erase_eq_filter]
    exact List.filter_congr (fun x _ => by by_cases hx : x = noneText <;> simp [hx])
  set O := 0 :: legend.map fun s => U.idxOf s with hO
  have hOeq : O = (noneText :: legend).map fun s => U.idxOf s := by rw [hO, List.map_cons, hU0]
  have hzero : zeroFirst (appear [] ((srcs.map fun r => r.map fun s => U.idxOf s).flatten)) = .ok O := by
    rw [happ, zeroFirst, if_pos h0mem, herase]
  have hNL : (noneText :: legend).Perm (firstSeen flat) := (List.perm_cons_erase hnfs).symm
  have hNLnd : (noneText :: legend).Nodup := hNL.nodup_iff.2 (nodup_firstSeen flat)
  have hNLmem : ∀ s, s ∈ noneText :: legend ↔ s ∈ flat := fun s => by rw [hNL.mem_iff, mem_firstSeen]
  have hUperm : (noneText :: legend).Perm U := (List.perm_ext_iff_of_nodup hNLnd hUnd).2 (fun s => by rw [hNLmem, hUmem])
  have hidU : U.map (fun s => U.idxOf s) = List.range U.length := by
    apply List.ext_getElem
    · simp
    · intro i h1 h2
      simp only [List.getElem_map, List.getElem_range]
      exact List.Nodup.idxOf_getElem hUnd i (by simpa using h1)
  have hOperm : O.Perm (List.range O.length) := by
    have hl : O.length = U.length := by rw [hOeq, List.length_map, hUperm.length_eq]
    rw [hl, hOeq, ← hidU]
    exact hUperm.map _
  have hOlen : O.length = U.length := by rw [hOeq, List.length_map, hUperm.length_eq]
  have hnew : ∀ s ∈ flat, (argsort O).getD (U.idxOf s) 0 = (noneText :: legend).idxOf s := by
    intro s hs
    have hlt : U.idxOf s < O.length := by rw [hOlen]; exact List.idxOf_lt_length_iff.2 ((hUmem s).2 hs)
    rw [argsort_inverse hOperm hlt, hOeq]
    have : ∀ l : List Text, (∀ x ∈ l, x ∈ flat) → (l.map fun s => U.idxOf s).idxOf (U.idxOf s) = l.idxOf s := by
      intro l
      induction l with
      | nil => intro _; rfl
      | cons a l ih =>
        intro hl
        rw [List.map_cons, List.idxOf_cons, List.idxOf_cons, ih (fun x hx => hl x (by simp [hx]))]
        by_cases ha : a = s
        · subst ha; simp
        · have : U.idxOf a ≠ U.idxOf s := fun hh => ha (hinj a (hl a (by simp)) s hs hh)
          have h1 : (U.idxOf a == U.idxOf s) = false := by simpa using this
          have h2 : (a == s) = false := by simpa using ha
          rw [h1, h2]
    exact this _ (fun x hx => (hNLmem x).1 hx)
  have husrcs : (O.map fun c => U.getD c []) = noneText :: legend := by
    rw [hOeq, List.map_map]
    conv => rhs; rw [← List.map_id (noneText :: legend)]
    refine List.map_congr_left (fun s hs => ?_)
    have hs' : s ∈ U := (hUmem s).2 ((hNLmem s).1 hs)
    simp only [Function.comp, id]
    rw [List.getD_eq_getElem?_getD, List.getElem?_idxOf hs']
    rfl
  refine ⟨(srcs.map fun r => r.map fun s => U.idxOf s).map (fun r => rowCodes (r.map fun c => (argsort O).getD c 0)), legend, ?_, hleg, ?_, ?_⟩
  · have e : sourceCodes rows = match zeroFirst (appear [] ((srcs.map fun r => r.map fun s => U.idxOf s).flatten)) with
        | .error e => .error e
        | .ok ocodes => .ok ((srcs.map fun r => r.map fun s => U.idxOf s).map (fun r => rowCodes (r.map fun c => (argsort ocodes).getD c 0)),
            ocodes.map fun c => U.getD c []) := rfl
    rw [e, hzero]
    simp only [husrcs]
  · simp [hsrcs]
  · intro i row hrow
    refine ⟨rowCodes ((row.map fun s => U.idxOf s).map fun c => (argsort O).getD c 0), ?_, (rowCodes_spec _).1, fun c => ?_⟩
    · rw [List.getElem?_map, List.getElem?_map, hrow]; rfl
    · have hrf : ∀ s ∈ row, s ∈ flat := fun s hs => List.mem_flatten.2 ⟨row, List.mem_of_getElem? hrow, hs⟩
      rw [(rowCodes_spec _).2, List.map_map, List.mem_map]
      constructor
      · rintro ⟨⟨s, hs, rfl⟩, hne⟩
        simp only [Function.comp] at hne ⊢
        rw [hnew s (hrf s hs)] at hne ⊢
        refine ⟨by omega, s, hs, ?_⟩
        have hx : (noneText :: legend)[(noneText :: legend).idxOf s]? = some s := List.getElem?_idxOf ((hNLmem s).2 (hrf s hs))
        generalize (noneText :: legend).idxOf s = j at hx hne
        cases j with
        | zero => exact absurd rfl hne
        | succ j => simpa using hx
      · rintro ⟨hc, s, hs, hl⟩
        refine ⟨⟨s, hs, ?_⟩, by omega⟩
        simp only [Function.comp]
        rw [hnew s (hrf s hs)]
        have hx : (noneText :: legend)[c]? = some s := by
          cases c with
          | zero => omega
          | succ c => simpa using hl
        obtain ⟨hlt, hget⟩ := List.getElem?_eq_some_iff.1 hx
        rw [← hget]
        exact List.Nodup.idxOf_getElem hNLnd c hlt

/-- C155.  When every value has a source of its own, numbering them raises ValueError. -/
theorem codes_all_sourced (rows : List (List Text)) (h : noneText ∉ (rows.map fun r => r.map clean).flatten) :
    sourceCodes rows = .error .value := by
  set srcs := rows.map fun r => r.map clean with hsrcs
  have hnone : noneFirst (unique srcs.flatten) = noneText :: unique srcs.flatten := by
    rw [noneFirst, if_neg]
    rw [unique, List.mem_insertionSort, List.mem_dedup]
    exact h
  have hz : zeroFirst (appear [] ((srcs.map fun r => r.map fun s => (noneFirst (unique srcs.flatten)).idxOf s).flatten)) = .error .value := by
    rw [zeroFirst, if_neg]
    rw [appear_eq]
    simp only [List.nil_append, List.mem_filter, mem_firstSeen, List.not_mem_nil, not_false_iff, decide_true, and_true]
    rw [← List.map_flatten, List.mem_map]
    rintro ⟨s, hs, h0⟩
    rw [hnone, List.idxOf_cons] at h0
    by_cases hx : noneText = s
    · subst hx; exact h hs
    · have : (noneText == s) = false := by simpa using hx
      rw [this] at h0
      simp at h0
  have e : sourceCodes rows = match zeroFirst (appear [] ((srcs.map fun r => r.map fun s => (noneFirst (unique srcs.flatten)).idxOf s).flatten)) with
      | .error e => .error e
      | .ok ocodes => .ok ((srcs.map fun r => r.map fun s => (noneFirst (unique srcs.flatten)).idxOf s).map (fun r => rowCodes (r.map fun c => (argsort ocodes).getD c 0)),
          ocodes.map fun c => (noneFirst (unique srcs.flatten)).getD c []) := rfl
  rw [e, hz]

example : sourceCodes [["B".toList, "None".toList], ["A".toList, "dependent3".toList], ["B".toList, "A".toList]] =
    .ok ([[1], [2], [1, 2]], ["None".toList, "B".toList, "A".toList]) := by rfl

/-! ## When there is no table -/

/-- C156.  Without details and without a column of sources an ascii table (the default format) cannot be made, whatever the catalog. -/
theorem ascii_default_fails (g : Config) (n : Nat) (cols : List Column) (sep : Text) (hf : g.format = .ascii sep) (hd : g.details = none)
    (hs : cols.any Column.isSource = false) : table g n cols = .error .unbound := by
  unfold table
  simp only [hd, hs, Bool.false_eq_true, if_false, Bool.true_eq_false, hf, asciiTable, asciiNotes]
  cases g.sort <;> simp

theorem table_eq (g : Config) (n : Nat) (cols : List Column) : table g n cols =
    if (match g.details with | some ds => decide (ds.length = cols.length) | none => true) = false then .error .value
    else match (if cols.any Column.isSource then sourceCodes (sourceRows n cols) else .ok ([], [])) with
      | .error e => .error e
      | .ok (codes, usrcs) =>
        if g.sort then (if cols.any Column.isSource then (if usrcs.length ≤ cols.length then .error .type else .error .index) else .error .unbound)
        else match g.format with
          | .ascii sep => asciiTable g sep (cols.map Column.title) (if cols.any Column.isSource then some (annotation usrcs) else none) ((List.range n).map fun i => rowEntries codes i cols)
          | .latex => latexTable g (cols.map Column.title) (if cols.any Column.isSource then some (annotation usrcs) else none) ((List.range n).map fun i => rowEntries codes i cols)
          | .deluxe => deluxeTable g (cols.map Column.title) ((List.range n).map fun i => rowEntries codes i cols)
          | .other => .error .attribute := rfl

theorem sort_error (g : Config) (n : Nat) (cols : List Column) (hs : g.sort = true) : ∃ e, table g n cols = .error e := by
  rw [table_eq]
  generalize (match g.details with | some ds => decide (ds.length = cols.length) | none => true) = lenOk
  cases lenOk with
  | false => exact ⟨.value, by rw [if_pos rfl]⟩
  | true =>
    rw [if_neg (by simp)]
    generalize (if cols.any Column.isSource then sourceCodes (sourceRows n cols) else .ok ([], [])) = r
    cases r with
    | error e => exact ⟨e, rfl⟩
    | ok p =>
      obtain ⟨a, b⟩ := p
      simp only [hs, if_true]
      split
      · split
        · exact ⟨_, rfl⟩
        · exact ⟨_, rfl⟩
      · exact ⟨_, rfl⟩

/-- C156.  Sorting a table always fails (a table of one object, which has nothing to sort, is not part of the claim). -/
theorem sort_fails (g : Config) (n : Nat) (cols : List Column) (_ : n ≠ 1) (hs : g.sort = true) : ∃ e, table g n cols = .error e :=
  sort_error g n cols hs

/-- C156.  A deluxetable without details always fails. -/
theorem deluxe_needs_details (g : Config) (n : Nat) (cols : List Column) (hf : g.format = .deluxe) (hd : g.details = none) :
    ∃ e, table g n cols = .error e := by
  by_cases hs : g.sort = true
  · exact sort_error g n cols hs
  · unfold table
    simp only [hd, Bool.true_eq_false, if_false, hs, hf]
    generalize (if cols.any Column.isSource then sourceCodes (sourceRows n cols) else .ok ([], [])) = r
    cases r with
    | error e => exact ⟨e, rfl⟩
    | ok p =>
      obtain ⟨a, b⟩ := p
      simp only [deluxeTable, hd, Bool.false_eq_true, if_false]
      generalize sequence (deluxeHeads none 0 (cols.map Column.title)) = r1
      cases r1 with
      | error e => exact ⟨e, rfl⟩
      | ok h =>
        simp only
        generalize sequence (((List.range n).map fun i => rowEntries a i cols).map (texRow g.errors)) = r2
        cases r2 <;> exact ⟨_, rfl⟩

theorem sequence_error {α : Type} {l : List (Except Err α)} {e : Err} (h : .error e ∈ l) : ∃ e, sequence l = .error e := by
  induction l with
  | nil => simp at h
  | cons x l ih =>
    cases x with
    | error e' => exact ⟨e', rfl⟩
    | ok a =>
      rcases List.mem_cons.1 h with h | h
      · simp at h
      · obtain ⟨e', he'⟩ := ih h
        exact ⟨e', by simp only [sequence, he']⟩

theorem sequence_ok {α β : Type} {f : β → Except Err α} {g : β → α} : ∀ {l : List β}, (∀ b ∈ l, f b = .ok (g b)) → sequence (l.map f) = .ok (l.map g)
  | [], _ => rfl
  | b :: l, h => by
    simp only [List.map_cons, sequence, h b (by simp), sequence_ok (l := l) (fun b hb => h b (by simp [hb]))]

theorem row_with_source (codes : List (List Nat)) (i : Nat) {cols : List Column} (hs : cols.any Column.isSource = true) :
    (∃ e, texRow true (rowEntries codes i cols) = .error e) ∧ ∀ sep, ∃ e, asciiRow true sep (rowEntries codes i cols) = .error e := by
  obtain ⟨c, hc, hcs⟩ := List.any_eq_true.1 hs
  have hm : (c, Entry.text (codeText (codes.getD i []))) ∈ rowEntries codes i cols := by
    rw [rowEntries, List.mem_map]
    exact ⟨c, hc, by simp [hcs]⟩
  constructor
  · obtain ⟨e, he⟩ := sequence_error (e := .type) (l := (rowEntries codes i cols).map (texEntry true)) (List.mem_map.2 ⟨_, hm, by simp [texEntry]⟩)
    exact ⟨e, by simp only [texRow, he]⟩
  · intro sep
    obtain ⟨e, he⟩ := sequence_error (e := .type) (l := (rowEntries codes i cols).map (asciiEntry true)) (List.mem_map.2 ⟨_, hm, by simp [asciiEntry]⟩)
    exact ⟨e, by simp only [asciiRow, he]⟩

/-- C156.  Errors (the default) and a column of sources cannot be combined (an ascii table of one or two objects is not part of the claim). -/
theorem errors_with_sources_fail (g : Config) (n : Nat) (cols : List Column) (hn : 0 < n) (_ : ∀ sep, g.format = .ascii sep → 2 < n) (he : g.errors = true)
    (hs : cols.any Column.isSource = true) : ∃ e, table g n cols = .error e := by
  by_cases hso : g.sort = true
  · exact sort_error g n cols hso
  · rw [table_eq]
    generalize (match g.details with | some ds => decide (ds.length = cols.length) | none => true) = lenOk
    cases lenOk with
    | false => exact ⟨.value, by rw [if_pos rfl]⟩
    | true =>
      rw [if_neg (by simp), if_pos hs]
      cases sourceCodes (sourceRows n cols) with
      | error e => exact ⟨e, rfl⟩
      | ok p =>
        obtain ⟨codes, b⟩ := p
        simp only [hso, Bool.false_eq_true, if_false]
        have h0 : rowEntries codes 0 cols ∈ (List.range n).map fun i => rowEntries codes i cols := List.mem_map.2 ⟨0, by simpa using hn, rfl⟩
        obtain ⟨e1, h1⟩ := (row_with_source codes 0 hs).1
        cases hf : g.format with
        | ascii sep =>
          obtain ⟨e2, h2⟩ := (row_with_source codes 0 hs).2 sep
          obtain ⟨e3, h3⟩ := sequence_error (e := e2) (List.mem_map.2 ⟨_, h0, h2⟩)
          simp only [asciiTable, he, h3]
          generalize asciiNotes g.details (asciiTitles true (cols.map Column.title)) _ = r
          cases r with
          | error e => exact ⟨e, rfl⟩
          | ok nt => exact ⟨e3, rfl⟩
        | latex =>
          obtain ⟨e3, h3⟩ := sequence_error (e := e1) (List.mem_map.2 ⟨_, h0, h1⟩)
          exact ⟨e3, by simp only [latexTable, he, h3]⟩
        | deluxe =>
          obtain ⟨e3, h3⟩ := sequence_error (e := e1) (List.mem_map.2 ⟨_, h0, h1⟩)
          simp only [deluxeTable, he, h3]
          generalize sequence (deluxeHeads g.details 0 (cols.map Column.title)) = r1
          cases r1 with
          | error e => exact ⟨e, rfl⟩
          | ok h => exact ⟨e3, rfl⟩
        | other => exact ⟨_, rfl⟩

/-! ## What a table says -/

/-- The text of a value in a LaTeX table. -/
noncomputable def texText (errors : Bool) (codes : List (List Nat)) (i : Nat) (c : Column) : Text :=
  if c.isSource then (c.fmtText (codeText (codes.getD i []))).getD []
  else
    let x := (shown c).getD i ⟨none, 0, 0⟩
    match x.val with
    | none => "\\nodata".toList
    | some v => if errors then c.fmt v ++ "^{+".toList ++ c.fmt x.up ++ "}_{-".toList ++ c.fmt x.low ++ "}".toList else c.fmt v

/-- A row of a LaTeX table without its end. -/
noncomputable def texLine (errors : Bool) (codes : List (List Nat)) (cols : List Column) (i : Nat) : Text :=
  join " & ".toList (cols.map (texText errors codes i))

theorem texRow_ok {errors : Bool} (codes : List (List Nat)) (i : Nat) {cols : List Column}
    (h : ∀ c ∈ cols, c.isSource = true → errors = false ∧ ∀ t, (c.fmtText t).isSome = true) :
    texRow errors (rowEntries codes i cols) = .ok (texLine errors codes cols i ++ (if errors then "\\\\".toList else " \\\\".toList)) := by
  have : sequence ((rowEntries codes i cols).map (texEntry errors)) = .ok (cols.map (texText errors codes i)) := by
    rw [rowEntries, List.map_map]
    refine sequence_ok (fun c hc => ?_)
    simp only [Function.comp, texText]
    cases hs : c.isSource with
    | true =>
      obtain ⟨he, ht⟩ := h c hc hs
      have := ht (codeText (codes.getD i []))
      simp only [if_true, texEntry, he, Bool.false_eq_true, if_false]
      cases hx : c.fmtText (codeText (codes.getD i [])) with
      | none => rw [hx] at this; simp at this
      | some u => rfl
    | false =>
      simp only [Bool.false_eq_true, if_false, texEntry]
      cases ((shown c).getD i ⟨none, 0, 0⟩).val with
      | none => rfl
      | some v => cases errors <;> rfl
  simp only [texRow, this, texLine]

/-- The lines before the rows of a LaTeX table. -/
def latexHead (cols : List Column) : List Text :=
  ["\\begin{table}[htbp]".toList, "\\begin{tabular}{".toList ++ join "|".toList (cols.map fun _ => " c ".toList) ++ "}".toList,
    join " & ".toList (cols.map Column.title) ++ " \\\\".toList, "\\hline".toList]

/-- The lines after them. -/
def latexTail (caption : Option Text) (ann : Option Text) : List Text :=
  ["\\end{tabular}".toList] ++ (if latexCaption caption ann = [] then [] else ["\\caption{".toList ++ latexCaption caption ann ++ "}".toList]) ++
    ["\\end{table}".toList]

theorem cutLast_append (l : List Text) (a : Text) : cutLast (l ++ [a]) = l ++ [a.take (a.length - 2)] := by
  simp [cutLast]

theorem table_latex {g : Config} {n : Nat} {cols : List Column} (hf : g.format = .latex) (hso : g.sort = false) (hd : g.details = none)
    {codes : List (List Nat)} {usrcs : List Text}
    (hc : (if cols.any Column.isSource then sourceCodes (sourceRows n cols) else .ok ([], [])) = .ok (codes, usrcs)) :
    table g n cols = latexTable g (cols.map Column.title) (if cols.any Column.isSource then some (annotation usrcs) else none)
      ((List.range n).map fun i => rowEntries codes i cols) := by
  unfold table
  simp only [hd, Bool.true_eq_false, if_false, hc, hso, Bool.false_eq_true, hf]

/-- C156.  A LaTeX table has one row for every object, in order, with the value of every column (and its errors, if they are wanted), `\\nodata` for values that
are missing and the numbers of the sources in their column, between the titles and the caption; the rows are separated by `\\\\`. -/
theorem latex_exact {g : Config} {m : Nat} {cols : List Column} (hf : g.format = .latex) (hso : g.sort = false) (hd : g.details = none)
    (h : ∀ c ∈ cols, c.isSource = true → g.errors = false ∧ ∀ t, (c.fmtText t).isSome = true)
    {codes : List (List Nat)} {usrcs : List Text}
    (hc : (if cols.any Column.isSource then sourceCodes (sourceRows (m + 1) cols) else .ok ([], [])) = .ok (codes, usrcs)) :
    table g (m + 1) cols = .ok (latexHead cols ++
      (List.range m).map (fun i => texLine g.errors codes cols i ++ (if g.errors then "\\\\".toList else " \\\\".toList)) ++
      [texLine g.errors codes cols m ++ (if g.errors then [] else " ".toList)] ++
      latexTail g.caption (if cols.any Column.isSource then some (annotation usrcs) else none)) := by
  rw [table_latex hf hso hd hc, latexTable]
  have hb : sequence (((List.range (m + 1)).map fun i => rowEntries codes i cols).map (texRow g.errors)) =
      .ok ((List.range (m + 1)).map (fun i => texLine g.errors codes cols i ++ (if g.errors then "\\\\".toList else " \\\\".toList))) := by
    rw [List.map_map]
    exact sequence_ok (fun i _ => texRow_ok codes i h)
  simp only [hb]
  rw [List.range_succ, List.map_append, List.map_singleton, ← List.append_assoc, cutLast_append]
  have hcut : (texLine g.errors codes cols m ++ (if g.errors then "\\\\".toList else " \\\\".toList)).take
      ((texLine g.errors codes cols m ++ (if g.errors then "\\\\".toList else " \\\\".toList)).length - 2) =
      texLine g.errors codes cols m ++ (if g.errors then [] else " ".toList) := by
    cases g.errors with
    | true => simp
    | false =>
      have e : (" \\\\".toList : Text) = " ".toList ++ "\\\\".toList := by decide
      simp only [Bool.false_eq_true, if_false]
      rw [e, ← List.append_assoc]
      generalize texLine false codes cols m ++ " ".toList = l
      simp
  rw [hcut]
  simp only [latexHead, latexTail, List.map_map, Function.comp_def, List.append_assoc]

/-- C156.  For an empty catalog the line that is cut is the rule below the titles, which is no LaTeX command afterwards. -/
theorem latex_empty {g : Config} {cols : List Column} (hf : g.format = .latex) (hso : g.sort = false) (hd : g.details = none)
    (hs : cols.any Column.isSource = false) : ∃ l, table g 0 cols = .ok l ∧ "\\hli".toList ∈ l ∧ l[3]? = some "\\hli".toList := by
  rw [table_latex (codes := []) (usrcs := []) hf hso hd (by simp [hs])]
  refine ⟨_, rfl, ?_, ?_⟩
  · simp [cutLast]
  · rfl

/-- The texts of an ascii table for a value. -/
noncomputable def asciiTexts (errors : Bool) (codes : List (List Nat)) (i : Nat) (c : Column) : List Text :=
  if c.isSource then [(c.fmtText (codeText (codes.getD i []))).getD []]
  else
    let x := (shown c).getD i ⟨none, 0, 0⟩
    if errors then [c.fmt (x.val.getD 0), c.fmt ((x.up + x.low) / 2)]
    else match x.val with
      | none => ["...".toList]
      | some v => [c.fmt v]

theorem asciiRow_ok {errors : Bool} (sep : Text) (codes : List (List Nat)) (i : Nat) {cols : List Column}
    (h : ∀ c ∈ cols, c.isSource = true → errors = false ∧ ∀ t, (c.fmtText t).isSome = true) :
    asciiRow errors sep (rowEntries codes i cols) = .ok (join sep (cols.map (asciiTexts errors codes i)).flatten) := by
  have : sequence ((rowEntries codes i cols).map (asciiEntry errors)) = .ok (cols.map (asciiTexts errors codes i)) := by
    rw [rowEntries, List.map_map]
    refine sequence_ok (fun c hc => ?_)
    simp only [Function.comp, asciiTexts]
    cases hs : c.isSource with
    | true =>
      obtain ⟨he, ht⟩ := h c hc hs
      have := ht (codeText (codes.getD i []))
      simp only [if_true, asciiEntry, he, Bool.false_eq_true, if_false]
      cases hx : c.fmtText (codeText (codes.getD i [])) with
      | none => rw [hx] at this; simp at this
      | some u => rfl
    | false =>
      simp only [Bool.false_eq_true, if_false, asciiEntry]
      cases errors with
      | true => rfl
      | false => cases ((shown c).getD i ⟨none, 0, 0⟩).val <;> rfl
  simp only [asciiRow, this]

/-- C156.  An ascii table with details: the titles, the caption and the details as remarks, and one line for every object with the values (each followed
by the mean of its two errors, if they are wanted). -/
theorem ascii_exact {g : Config} {n : Nat} {cols : List Column} {sep : Text} {ds : List Text} (hf : g.format = .ascii sep) (hso : g.sort = false)
    (hd : g.details = some ds) (hl : ds.length = cols.length) (hcap : g.caption = none)
    (h : ∀ c ∈ cols, c.isSource = true → g.errors = false ∧ ∀ t, (c.fmtText t).isSome = true)
    {codes : List (List Nat)} {usrcs : List Text}
    (hc : (if cols.any Column.isSource then sourceCodes (sourceRows n cols) else .ok ([], [])) = .ok (codes, usrcs)) :
    table g n cols = .ok (["#".toList ++ join sep (asciiTitles g.errors (cols.map Column.title))] ++
      ((asciiTitles g.errors (cols.map Column.title)).zip ds).map (fun p => "#".toList ++ p.1 ++ ": ".toList ++ p.2) ++
      (List.range n).map fun i => join sep (cols.map (asciiTexts g.errors codes i)).flatten) := by
  unfold table
  have hb : sequence (((List.range n).map fun i => rowEntries codes i cols).map (asciiRow g.errors sep)) =
      .ok ((List.range n).map fun i => join sep (cols.map (asciiTexts g.errors codes i)).flatten) := by
    rw [List.map_map]
    exact sequence_ok (fun i _ => asciiRow_ok sep codes i h)
  simp only [hd, hl, decide_true, Bool.true_eq_false, if_false, hc, hso, Bool.false_eq_true, hf, asciiTable, asciiNotes, hb, hcap, List.append_nil]

/-- C156.  With errors the details go to the wrong titles: the detail of the second column is printed beside the error of the first. -/
theorem ascii_details_shifted {t0 t1 d0 d1 : Text} {ts ds : List Text} :
    ((asciiTitles true (t0 :: t1 :: ts)).zip (d0 :: d1 :: ds))[1]? = some (t0 ++ "_err".toList, d1) := rfl

/-- C156.  In a logarithmic column the upper error is right, and the lower one is right only where the lower end of the range is 1. -/
theorem log_errors {c : Cell} {a : ℝ} (hv : c.val = some a) (hl : c.low < a) :
    log10 a + (logCell c).up = log10 (a + c.up) ∧ (logCell c).val = some (log10 a) ∧
    (log10 a - (logCell c).low = log10 (a - c.low) ↔ a - c.low = 1) := by
  simp only [logCell, hv]
  refine ⟨by ring, trivial, ?_⟩
  have hpos : 0 < a - c.low := by linarith
  have h10 : Real.log 10 ≠ 0 := Real.log_ne_zero_of_pos_of_ne_one (by norm_num) (by norm_num)
  constructor
  · intro h
    have h0 : log10 (a - c.low) = 0 := by linarith
    rw [log10, div_eq_zero_iff] at h0
    rcases h0 with h0 | h0
    · rcases Real.log_eq_zero.1 h0 with h1 | h1 | h1
      · linarith
      · exact h1
      · linarith
    · exact absurd h0 h10
  · intro h
    have h0 : log10 (a - c.low) = 0 := by rw [h, log10, Real.log_one, zero_div]
    rw [h0]; ring

theorem sequence_cons {α : Type} (a : α) (l : List (Except Err α)) (r : List α) (h : sequence l = .ok r) : sequence (.ok a :: l) = .ok (a :: r) := by
  simp only [sequence, h]

/-- The letter of the note number `i`, from `a` on. -/
def noteLetter (i : Nat) : Char := Char.ofNat (97 + i)

theorem deluxeHeads_ok (ds : List Text) : ∀ (i : Nat) (ts : List Text), i + ts.length ≤ 159 → sequence (deluxeHeads (some ds) i ts) =
    .ok ((ts.zipIdx i).map fun p => "    \\colhead{".toList ++ p.1 ++ "\\tablenotemark{".toList ++ [noteLetter p.2] ++ "}} &".toList)
  | _, [], _ => rfl
  | i, t :: ts, h => by
    rw [List.length_cons] at h
    simp only [deluxeHeads, letter]
    rw [if_pos (by omega)]
    exact sequence_cons _ _ _ (deluxeHeads_ok ds (i + 1) ts (by omega))

theorem deluxeNotes_ok : ∀ (i : Nat) (ds : List Text), i + ds.length ≤ 159 → sequence (deluxeNotes i ds) =
    .ok ((ds.zipIdx i).map fun p => "\\tablenotetext{".toList ++ [noteLetter p.2] ++ "}{".toList ++ p.1 ++ "}".toList)
  | _, [], _ => rfl
  | i, d :: ds, h => by
    rw [List.length_cons] at h
    simp only [deluxeNotes, letter]
    rw [if_pos (by omega)]
    exact sequence_cons _ _ _ (deluxeNotes_ok (i + 1) ds (by omega))

theorem cut_two (l t : Text) (ht : t.length = 2) : (l ++ t).take ((l ++ t).length - 2) = l := by
  simp [ht]

/-- The end of a row is cut from the last one. -/
theorem cut_row (errors : Bool) (l : Text) : (l ++ (if errors then "\\\\".toList else " \\\\".toList)).take
    ((l ++ (if errors then "\\\\".toList else " \\\\".toList)).length - 2) = l ++ (if errors then [] else " ".toList) := by
  cases errors with
  | true => simpa using cut_two l "\\\\".toList rfl
  | false =>
    have e : (" \\\\".toList : Text) = " ".toList ++ "\\\\".toList := by decide
    simp only [Bool.false_eq_true, if_false]
    rw [e, ← List.append_assoc]
    exact cut_two _ _ rfl

/-- C156.  A deluxetable with a detail for every column (at most 159): the heads with their note letters, separated by `&`, the rows as in a LaTeX table, and
the note of every column under its letter. -/
theorem deluxe_exact {g : Config} {m : Nat} {cols : List Column} {c0 : List Column} {cl : Column} {ds : List Text} (hf : g.format = .deluxe) (hso : g.sort = false)
    (hd : g.details = some ds) (hl : ds.length = cols.length) (hcols : cols = c0 ++ [cl]) (h159 : cols.length ≤ 159) (hcap : g.caption = none)
    (h : ∀ c ∈ cols, c.isSource = true → g.errors = false ∧ ∀ t, (c.fmtText t).isSome = true)
    {codes : List (List Nat)} {usrcs : List Text}
    (hc : (if cols.any Column.isSource then sourceCodes (sourceRows (m + 1) cols) else .ok ([], [])) = .ok (codes, usrcs)) :
    table g (m + 1) cols = .ok (["\\begin{deluxetable*}{".toList ++ cols.map (fun _ => 'c') ++ "}".toList,
        "\\tablecolumns{".toList ++ digits cols.length ++ "}".toList, "\\tablehead{".toList] ++
      (c0.zipIdx.map fun p => "    \\colhead{".toList ++ p.1.title ++ "\\tablenotemark{".toList ++ [noteLetter p.2] ++ "}} &".toList) ++
      ["    \\colhead{".toList ++ cl.title ++ "\\tablenotemark{".toList ++ [noteLetter c0.length] ++ "}}".toList] ++
      ["}".toList, [], "\\startdata".toList, []] ++
      (List.range m).map (fun i => texLine g.errors codes cols i ++ (if g.errors then "\\\\".toList else " \\\\".toList)) ++
      [texLine g.errors codes cols m ++ (if g.errors then [] else " ".toList)] ++
      [[], "\\enddata".toList, []] ++
      (ds.zipIdx.map fun p => "\\tablenotetext{".toList ++ [noteLetter p.2] ++ "}{".toList ++ p.1 ++ "}".toList) ++ [[], "\\end{deluxetable*}".toList]) := by
  have hb : sequence (((List.range (m + 1)).map fun i => rowEntries codes i cols).map (texRow g.errors)) =
      .ok ((List.range (m + 1)).map (fun i => texLine g.errors codes cols i ++ (if g.errors then "\\\\".toList else " \\\\".toList))) := by
    rw [List.map_map]
    exact sequence_ok (fun i _ => texRow_ok codes i h)
  have hh := deluxeHeads_ok ds 0 (cols.map Column.title) (by simpa using h159)
  have hn := deluxeNotes_ok 0 ds (by omega)
  have e : table g (m + 1) cols = deluxeTable g (cols.map Column.title) ((List.range (m + 1)).map fun i => rowEntries codes i cols) := by
    unfold table
    simp only [hd, hl, decide_true, Bool.true_eq_false, if_false, hc, hso, Bool.false_eq_true, hf]
  have hz : (((cols.map Column.title).zipIdx 0).map fun p => "    \\colhead{".toList ++ p.1 ++ "\\tablenotemark{".toList ++ [noteLetter p.2] ++ "}} &".toList) =
      (c0.zipIdx.map fun p => "    \\colhead{".toList ++ p.1.title ++ "\\tablenotemark{".toList ++ [noteLetter p.2] ++ "}} &".toList) ++
        ["    \\colhead{".toList ++ cl.title ++ "\\tablenotemark{".toList ++ [noteLetter c0.length] ++ "}}".toList ++ " &".toList] := by
    have e2 : ("}} &".toList : Text) = "}}".toList ++ " &".toList := by decide
    rw [hcols, e2]
    simp [List.zipIdx_append, List.zipIdx_map, Function.comp_def]
  rw [e]
  simp only [deluxeTable, hd, hh, hb, hn, hcap, hz]
  rw [List.append_nil, ← List.append_assoc, cutLast_append, cut_two _ " &".toList rfl]
  rw [List.range_succ, List.map_append, List.map_singleton, ← List.append_assoc, cutLast_append, cut_row]
  simp only [List.map_map, Function.comp_def, List.length_map, List.append_assoc, List.cons_append, List.nil_append]

/-- C155.  Sources that begin with `dependent`, and they alone, count as no source. -/
theorem clean_exact (s : Text) : clean s = noneText ↔ s = noneText ∨ "dependent".toList <+: s := by
  have hl : s.take 9 = "dependent".toList ↔ "dependent".toList <+: s := by
    constructor
    · intro h; rw [← h]; exact List.take_prefix _ _
    · rintro ⟨t, rfl⟩; rfl
  rw [clean, ← hl]
  by_cases h : s.take 9 = "dependent".toList
  · simp [h]
  · simp only [h, if_false, or_false]

/-- C155.  Every other source keeps its name. -/
theorem clean_other {s : Text} (h : ¬ "dependent".toList <+: s) : clean s = s := by
  rw [clean, if_neg]
  intro h'
  exact h (by rw [← h']; exact List.take_prefix _ _)

/-- C156.  The cells that are printed: the extracted values, or their logarithms in a logarithmic column; missing values stay missing. -/
theorem shown_cell {c : Column} {i : Nat} {x : Cell} (h : c.cells[i]? = some x) :
    ∃ y, (shown c)[i]? = some y ∧ y.val = (if c.log then x.val.map log10 else x.val) ∧ (c.log = false → y = x) := by
  by_cases hl : c.log = true
  · refine ⟨logCell x, by simp [shown, hl, h], ?_, by simp [hl]⟩
    simp only [hl, if_true, logCell]
    cases hv : x.val with
    | none => simp [hv]
    | some a => rfl
  · exact ⟨x, by simp [shown, hl, h], by simp [hl], fun _ => rfl⟩

/-- C156.  The caption of a LaTeX table: the given one, followed by the legend of the sources as a sentence of its own. -/
theorem caption_exact (cap : Text) (ann : Text) : latexCaption none none = [] ∧ latexCaption (some cap) none = cap ∧
    latexCaption (some (cap ++ ".".toList)) (some ann) = cap ++ ". ".toList ++ ann ∧
    (cap.getLast? ≠ some '.' → latexCaption (some cap) (some ann) = cap ++ ". ".toList ++ ann) := by
  refine ⟨rfl, rfl, ?_, fun h => ?_⟩
  · simp [latexCaption]
  · simp only [latexCaption, Option.getD_some, if_neg h]

/-- C156.  Details for a wrong number of columns raise ValueError. -/
theorem details_checked (g : Config) (n : Nat) (cols : List Column) {ds : List Text} (hd : g.details = some ds) (hl : ds.length ≠ cols.length) :
    table g n cols = .error .value := by
  rw [table_eq, hd]
  simp [hl]

/-- A column with the format `%s` and a value. -/
noncomputable def sampleCol (src : Bool) : Column :=
  ⟨src, "m".toList, fun _ => "x".toList, some, false, [⟨some 1, 0, 0⟩], ["None".toList]⟩

/-- The sources are listed under their numbers. -/
theorem numbered_get (l : List Text) (n k : Nat) : (numbered n l)[k]? = l[k]?.map fun s => " ".toList ++ digits (n + k) ++ ") ".toList ++ s := by
  induction l generalizing n k with
  | nil => simp [numbered]
  | cons s l ih =>
    cases k with
    | zero => simp [numbered]
    | succ k =>
      simp only [numbered, List.getElem?_cons_succ, ih]
      rw [show n + 1 + k = n + (k + 1) by omega]

/-- C155.  The annotation: the source with number `k` (from 1 on) is the `k`th of the listed ones, and no other is listed. -/
theorem annotation_exact (u : List Text) : ∃ l : List Text, annotation u = "Source Code:".toList ++ join ",".toList l ++ ".".toList ∧
    l.length = u.length - 1 ∧ ∀ k s, 1 ≤ k → u[k]? = some s → l[k - 1]? = some (" ".toList ++ digits k ++ ") ".toList ++ s) := by
  refine ⟨numbered 1 u.tail, rfl, ?_, ?_⟩
  · have hl : ∀ (l : List Text) n, (numbered n l).length = l.length := by
      intro l
      induction l with
      | nil => intro n; rfl
      | cons s l ih => intro n; simp [numbered, ih]
    rw [hl, List.length_tail]
  · intro k s hk hs
    rw [numbered_get, List.getElem?_tail, show k - 1 + 1 = k by omega, hs, show 1 + (k - 1) = k by omega]
    rfl

/-- C155.  The sources of an object are those of its values in the columns other than the source column, in the order of the columns. -/
theorem sources_of_object {n i : Nat} (cols : List Column) (hi : i < n) :
    ∃ row, (sourceRows n cols)[i]? = some row ∧ (sourceRows n cols).length = n ∧
      (∀ s, s ∈ row ↔ ∃ c ∈ cols, c.isSource = false ∧ c.srcs.getD i [] = s) ∧
      (cols.all (fun c => !c.isSource) = true → row = cols.map fun c => c.srcs.getD i []) := by
  refine ⟨(cols.filter fun c => !c.isSource).map fun c => c.srcs.getD i [], ?_, by simp [sourceRows], fun s => ?_, fun h => ?_⟩
  · simp [sourceRows, hi]
  · simp [List.mem_map, List.mem_filter, and_assoc]
  · rw [List.filter_eq_self.2 (by simpa [List.all_eq_true] using h)]

example : ∃ codes usrcs, (if [sampleCol false, sampleCol true].any Column.isSource then sourceCodes (sourceRows 1 [sampleCol false, sampleCol true])
    else .ok ([], [])) = .ok (codes, usrcs) := ⟨[[]], [noneText], by rfl⟩

end Verif.TextTable
