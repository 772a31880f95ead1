import Verif.PubPrepProps

/-!
# The files of a submission to arXiv (C165)
-/

namespace Verif.PubPrep

variable {C T : Type}

/-! ## Copying -/

theorem written_append {A : Type} (a b : List (Text × A)) (p : Text) : written (a ++ b) p = (written b p).or (written a p) := by
  induction a with
  | nil => simp [written]
  | cons e a ih =>
    obtain ⟨q, i⟩ := e
    simp only [List.cons_append, written, ih]
    cases written b p <;> simp

theorem written_mem {A : Type} (l : List (Text × A)) (p : Text) (i : A) (h : written l p = some i) : (p, i) ∈ l := by
  induction l with
  | nil => cases h
  | cons e l ih =>
    obtain ⟨q, j⟩ := e
    simp only [written] at h
    cases hw : written l p with
    | some k =>
      rw [hw] at h
      cases h
      exact List.mem_cons_of_mem _ (ih hw)
    | none =>
      rw [hw] at h
      simp only at h
      split_ifs at h with hq
      cases h
      rw [hq]
      exact List.mem_cons_self

theorem written_none {A : Type} (l : List (Text × A)) (p : Text) : written l p = none ↔ p ∉ l.map (·.1) := by
  induction l with
  | nil => simp [written]
  | cons e l ih =>
    obtain ⟨q, j⟩ := e
    simp only [written, List.map_cons, List.mem_cons, not_or]
    cases hw : written l p with
    | some k =>
      rw [hw] at ih
      simp only [reduceCtorEq, false_iff, not_not] at ih
      simp [ih]
    | none =>
      simp only
      rw [ih] at hw
      by_cases hq : q = p
      · simp [hq]
      · rw [if_neg hq]
        simp [Ne.symm hq]
        simpa using hw

/-- Copying touches its destinations only. -/
theorem copies_frame (l : List (Text × Text)) : ∀ (fs : FS C) (p : Text), (∀ e ∈ l, e.2 ≠ p) → find (copies fs l).1 p = find fs p := by
  induction l with
  | nil => intro fs p _; rfl
  | cons e l ih =>
    obtain ⟨s, t⟩ := e
    intro fs p h
    have hl : ∀ e ∈ l, e.2 ≠ p := fun e he => h e (List.mem_cons_of_mem _ he)
    have ht : t ≠ p := h (s, t) List.mem_cons_self
    simp only [copies]
    cases hf : find fs s with
    | none => exact ih fs p hl
    | some i =>
      cases i with
      | dir => rfl
      | file c =>
        simp only
        by_cases hst : s = t
        · rw [if_pos hst]
        · rw [if_neg hst, ih _ p hl, find_put, if_neg ht]

/-- Copying files, none of which is written by it: it works if there is no directory among them, and of two with the same destination
the last that exists is there afterwards. -/
theorem copies_exact (l : List (Text × Text)) : ∀ fs : FS C, (∀ e ∈ l, ∀ e' ∈ l, e.1 ≠ e'.2) →
    ((copies fs l).2 = none ↔ ∀ e ∈ l, find fs e.1 ≠ some .dir) ∧
    ((copies fs l).2 = none → ∀ p, find (copies fs l).1 p = (written (writes fs l) p).or (find fs p)) ∧
    ((copies fs l).2 ≠ none → (copies fs l).2 = some .io) := by
  induction l with
  | nil => intro fs _; simp [copies, writes, written]
  | cons e l ih =>
    obtain ⟨s, t⟩ := e
    intro fs h
    have hl : ∀ e ∈ l, ∀ e' ∈ l, e.1 ≠ e'.2 := fun e he e' he' => h e (List.mem_cons_of_mem _ he) e' (List.mem_cons_of_mem _ he')
    cases hf : find fs s with
    | none =>
      have e1 : copies fs ((s, t) :: l) = copies fs l := by simp only [copies, hf]
      have e2 : writes fs ((s, t) :: l) = writes fs l := by simp [writes, hf]
      rw [e1, e2]
      obtain ⟨h1, h2, h3⟩ := ih fs hl
      refine ⟨?_, h2, h3⟩
      rw [h1]
      simp [hf]
    | some i =>
      cases i with
      | dir =>
        have e1 : copies fs ((s, t) :: l) = (fs, some .io) := by simp only [copies, hf]
        rw [e1]
        simp [hf]
      | file c =>
        have hst : s ≠ t := h (s, t) List.mem_cons_self (s, t) List.mem_cons_self
        have e1 : copies fs ((s, t) :: l) = copies (put fs t (.file c)) l := by simp only [copies, hf, if_neg hst]
        have hsame : ∀ e ∈ l, find (put fs t (.file c)) e.1 = find fs e.1 := by
          intro e he
          rw [find_put, if_neg (Ne.symm (h e (List.mem_cons_of_mem _ he) (s, t) List.mem_cons_self))]
        have e2 : writes fs ((s, t) :: l) = (t, .file c) :: writes (put fs t (.file c)) l := by
          unfold writes
          rw [List.filterMap_cons]
          simp only [hf, Option.map_some]
          congr 1
          apply List.filterMap_congr
          intro e he
          rw [hsame e he]
        rw [e1, e2]
        obtain ⟨h1, h2, h3⟩ := ih (put fs t (.file c)) hl
        refine ⟨?_, ?_, h3⟩
        · rw [h1]
          constructor
          · intro hh e he
            rcases List.mem_cons.1 he with rfl | he
            · rw [hf]; simp
            · rw [← hsame e he]; exact hh e he
          · intro hh e he
            rw [hsame e he]
            exact hh e (List.mem_cons_of_mem _ he)
        · intro hn p
          rw [h2 hn p, find_put]
          simp only [written]
          cases written (writes (put fs t (.file c)) l) p with
          | some j => simp
          | none =>
            simp only [Option.none_or]
            split_ifs <;> simp

theorem writes_congr {fs fs' : FS C} (l : List (Text × Text)) (h : ∀ e ∈ l, find fs e.1 = find fs' e.1) : writes fs l = writes fs' l := by
  unfold writes
  apply List.filterMap_congr
  intro e he
  rw [h e he]

/-! ## The directory, whatever happens -/

theorem mkdir_frame (fs : FS C) (d p : Text) (hp : p ≠ d) : find (mkdir fs d).1 p = find fs p := by
  unfold mkdir
  split_ifs
  · rfl
  · simp only
    rw [find_put, if_neg (Ne.symm hp)]

theorem below_self (d : Text) : below d d = true := by simp [below]

/-- What finding the directory has touched, whether it ends well or not. -/
theorem choose_frame (fs : FS C) (nd : Text) (over : Bool) (p : Text) (h : find (chooseDir fs nd over).1 p ≠ find fs p) :
    ∃ d, Chosen fs nd over d ∧ below d p = true := by
  cases hf : find fs (chop nd) with
  | none =>
    refine ⟨_, .new hf, ?_⟩
    have e : chooseDir fs nd over = mkdir fs (chop nd) := by unfold chooseDir; simp only [hf]
    rw [e] at h
    by_contra hb
    exact h (mkdir_frame fs _ p (by rintro rfl; exact hb (below_self _)))
  | some i =>
    cases i with
    | file c =>
      have e : chooseDir fs nd over = (fs, .error .io) := by unfold chooseDir; simp only [hf]
      rw [e] at h
      exact absurd rfl h
    | dir =>
      cases over with
      | true =>
        refine ⟨_, .over hf rfl, ?_⟩
        have e : chooseDir fs nd true = mkdir (rmtree fs (chop nd)) (chop nd) := by unfold chooseDir; simp only [hf, if_true]
        rw [e] at h
        by_contra hb
        apply h
        rw [mkdir_frame _ _ p (by rintro rfl; exact hb (below_self _)), find_rmtree, if_neg hb]
      | false =>
        have e : chooseDir fs nd false = mkdir fs (numbered (chop nd) (firstFree fs (chop nd) fs.length 2)) := by
          unfold chooseDir; simp only [hf, Bool.false_eq_true, if_false]
        obtain ⟨s1, s2, s3, s4⟩ := firstFree_spec fs (chop nd) fs.length 2
        refine ⟨_, .number _ hf rfl s1 (firstFree_free fs _ ((exist_iff _ _).2 ⟨_, hf⟩)) s3, ?_⟩
        rw [e] at h
        by_contra hb
        exact h (mkdir_frame fs _ p (by rintro rfl; exact hb (below_self _)))

theorem chosen_clean {fs : FS C} {nd d : Text} {over : Bool} (hc : Clean (chop nd)) (h : Chosen fs nd over d) : Clean d := by
  cases h with
  | new _ => exact hc
  | over _ _ => exact hc
  | number n _ _ _ _ _ => exact numbered_clean _ _

theorem chosen_unique {fs : FS C} {nd d d' : Text} {over : Bool} (h : Chosen fs nd over d) (h' : Chosen fs nd over d') : d = d' := by
  cases h with
  | new h1 => cases h' with
    | new _ => rfl
    | over h2 _ => exact absurd (h1.symm.trans h2) (by simp)
    | number n h2 _ _ _ _ => exact absurd (h1.symm.trans h2) (by simp)
  | over h1 ho => cases h' with
    | new h2 => exact absurd (h1.symm.trans h2) (by simp)
    | over _ _ => rfl
    | number n _ ho' _ _ _ => rw [ho] at ho'; cases ho'
  | number n h1 ho hn hf hl => cases h' with
    | new h2 => exact absurd (h1.symm.trans h2) (by simp)
    | over _ ho' => rw [ho] at ho'; cases ho'
    | number m _ _ hm hf' hl' =>
      rcases Nat.lt_trichotomy n m with hh | hh | hh
      · exact absurd (hl' n hn hh) (by rw [hf]; simp)
      · rw [hh]
      · exact absurd (hl m hm hh) (by rw [hf']; simp)

theorem below_join (d b : Text) (hd : Clean d) (hb : '/' ∉ b) : below d (join d b) = true := by
  rw [join_clean d b hd hb, below_iff]
  exact Or.inr ⟨b, rfl⟩

/-! ## What a submission to arXiv consists of -/

/-- The name of the .tex file in the directory. -/
def outName (fs : FS C) (texfn d : Text) : Text :=
  let b := d ++ '/' :: base (texName fs texfn)
  if ends ".tex".toList b then b else b ++ ".tex".toList

theorem base_tex (b : Text) : base (b ++ ".tex".toList) = base b ++ ".tex".toList := by
  unfold base
  rw [List.reverse_append, List.takeWhile_append_of_pos, List.reverse_append]
  · simp
  · decide

theorem out_name (fs : FS C) (texfn d : Text) (hd : Clean d) :
    (if ends ".tex".toList (join d (base (texName fs texfn))) then join d (base (texName fs texfn)) else
      join d (base (texName fs texfn)) ++ ".tex".toList) = outName fs texfn d := by
  unfold outName
  rw [join_clean d _ hd (base_no_slash _)]

theorem out_below (fs : FS C) (texfn d : Text) : ∃ r, '/' ∉ r ∧ outName fs texfn d = d ++ '/' :: r := by
  unfold outName
  simp only
  split_ifs
  · exact ⟨_, base_no_slash _, rfl⟩
  · exact ⟨base (texName fs texfn) ++ ".tex".toList, by simp [base_no_slash], by simp⟩

/-- All the parts of a successful run. -/
theorem arxiv_inv {load : FS C → C → Except Err (Doc T)} {render : Doc T → C} {pack : List (Text × Item C) → C} {fs fs' : FS C} {texfn nd d : Text}
    {over : Bool} {exts : List Text} (h : arxiv load render pack fs texfn nd over exts = (fs', .ok d)) :
    ∃ c doc fs1 fns fs2 bibs fs4, find fs (texName fs texfn) = some (.file c) ∧ load fs c = .ok doc ∧ chooseDir fs nd over = (fs1, .ok d) ∧
      collect names doc.figs = .ok fns ∧ copies fs1 (arxivFiles d (exts.map dotted) fns) = (fs2, none) ∧
      collect (fun b => (item (reqs b) 0).map (fun t => [t])) doc.bibs = .ok bibs ∧
      copies (put fs2 (if ends ".tex".toList (join d (base (texName fs texfn))) then join d (base (texName fs texfn)) else
        join d (base (texName fs texfn)) ++ ".tex".toList) (.file (render doc)))
        (arxivBib (put fs2 (if ends ".tex".toList (join d (base (texName fs texfn))) then join d (base (texName fs texfn)) else
        join d (base (texName fs texfn)) ++ ".tex".toList) (.file (render doc))) d (if ends ".tex".toList (join d (base (texName fs texfn))) then
        join d (base (texName fs texfn)) else join d (base (texName fs texfn)) ++ ".tex".toList) bibs) = (fs4, none) ∧
      archive pack fs4 d (join d (d ++ ".tar.gz".toList)) = (fs', .ok d) := by
  unfold arxiv at h
  simp only at h
  cases hf : find fs (texName fs texfn) with
  | none => rw [hf] at h; cases h
  | some i =>
    rw [hf] at h
    cases i with
    | dir => cases h
    | file c =>
      simp only at h
      cases hl : load fs c with
      | error e => rw [hl] at h; cases h
      | ok doc =>
        rw [hl] at h
        simp only at h
        rcases hc : chooseDir fs nd over with ⟨fs1, e | d1⟩
        · rw [hc] at h; cases h
        · rw [hc] at h
          simp only at h
          cases hn : collect names doc.figs with
          | error e => rw [hn] at h; cases h
          | ok fns =>
            rw [hn] at h
            simp only at h
            rcases hc2 : copies fs1 (arxivFiles d1 (exts.map dotted) fns) with ⟨fs2, _ | e⟩
            · rw [hc2] at h
              simp only at h
              cases hb : collect (fun b => (item (reqs b) 0).map (fun t => [t])) doc.bibs with
              | error e => rw [hb] at h; cases h
              | ok bibs =>
                rw [hb] at h
                simp only at h
                split at h
                · cases h
                · rename_i fs4 hc4
                  have : d1 = d := by
                    unfold archive at h
                    split_ifs at h <;> cases h
                    rfl
                  subst this
                  exact ⟨c, doc, fs1, fns, fs2, bibs, fs4, rfl, hl, rfl, hn, hc2, hb, hc4, h⟩
            · rw [hc2] at h; cases h

theorem archive_frame (pack : List (Text × Item C) → C) (fs : FS C) (d tfn p : Text) (h : p ≠ tfn) : find (archive pack fs d tfn).1 p = find fs p := by
  unfold archive
  split_ifs
  · simp only
    rw [find_put, if_neg (Ne.symm h)]
  · rfl

theorem archive_ok {pack : List (Text × Item C) → C} {fs fs' : FS C} {d d' tfn : Text} (h : archive pack fs d tfn = (fs', .ok d')) :
    fs' = put fs tfn (.file (pack (members fs d tfn))) ∧ d' = d ∧ placeOk fs tfn = true := by
  unfold archive at h
  split_ifs at h with hc
  · cases h
    simp only [Bool.and_eq_true] at hc
    exact ⟨rfl, rfl, hc.1⟩
  · cases h

theorem arxivFiles_dest {d : Text} (hd : Clean d) (exts fns : List Text) : ∀ e ∈ arxivFiles d exts fns, ∃ r, '/' ∉ r ∧ e.2 = d ++ '/' :: r := by
  intro e he
  unfold arxivFiles at he
  obtain ⟨fn, _, he⟩ := List.mem_flatMap.1 he
  obtain ⟨x, _, rfl⟩ := List.mem_map.1 he
  exact ⟨_, base_no_slash _, join_clean d _ hd (base_no_slash _)⟩

theorem dropLast_slash (t : Text) (h : '/' ∉ t) : '/' ∉ t.dropLast := fun hm => h (List.dropLast_subset _ hm)

theorem arxivBib_dest {d : Text} (hd : Clean d) (fs : FS C) (tex : Text) (bibs : List Text) :
    ∀ e ∈ arxivBib fs d tex bibs, ∃ r, '/' ∉ r ∧ e.2 = d ++ '/' :: r := by
  intro e he
  unfold arxivBib at he
  simp only at he
  have hno : '/' ∉ (base tex).dropLast.dropLast.dropLast.dropLast ++ ".bbl".toList := by
    rw [List.mem_append, not_or]
    exact ⟨dropLast_slash _ (dropLast_slash _ (dropLast_slash _ (dropLast_slash _ (base_no_slash _)))), by decide⟩
  split_ifs at he
  · rw [List.mem_singleton] at he
    subst he
    exact ⟨_, hno, join_clean d _ hd hno⟩
  · split at he
    · rw [List.mem_singleton] at he
      subst he
      exact ⟨_, base_no_slash _, join_clean d _ hd (base_no_slash _)⟩
    · cases he

theorem copies_below {d : Text} (fs : FS C) (l : List (Text × Text)) (hl : ∀ e ∈ l, ∃ r, '/' ∉ r ∧ e.2 = d ++ '/' :: r) (p : Text)
    (hp : ¬ ∃ r, '/' ∉ r ∧ p = d ++ '/' :: r) : find (copies fs l).1 p = find fs p := by
  apply copies_frame
  intro e he h
  obtain ⟨r, h1, h2⟩ := hl e he
  exact hp ⟨r, h1, by rw [← h, h2]⟩

/-- C165.  Whatever happens, nothing is touched but the directory that was found and the archive. -/
theorem arxiv_outside (load : FS C → C → Except Err (Doc T)) (render : Doc T → C) (pack : List (Text × Item C) → C) (fs : FS C) (texfn nd : Text)
    (over : Bool) (exts : List Text) (hw : WF fs) (hc : Clean (chop nd)) (p : Text)
    (h : find (arxiv load render pack fs texfn nd over exts).1 p ≠ find fs p) :
    ∃ d, Chosen fs nd over d ∧ (below d p = true ∨ p = join d (d ++ ".tar.gz".toList)) := by
  unfold arxiv at h
  simp only at h
  cases hf : find fs (texName fs texfn) with
  | none => rw [hf] at h; exact absurd rfl h
  | some i =>
    rw [hf] at h
    cases i with
    | dir => exact absurd rfl h
    | file c =>
      simp only at h
      cases hl : load fs c with
      | error e => rw [hl] at h; exact absurd rfl h
      | ok doc =>
        rw [hl] at h
        simp only at h
        rcases hd : chooseDir fs nd over with ⟨fs1, e | d⟩
        · rw [hd] at h
          obtain ⟨d, h1, h2⟩ := choose_frame fs nd over p (by rw [hd]; exact h)
          exact ⟨d, h1, Or.inl h2⟩
        · rw [hd] at h
          simp only at h
          obtain ⟨k1, k2, k3, k4, k5⟩ := choose_ok hw hd
          have hcl := chosen_clean hc k1
          refine ⟨d, k1, ?_⟩
          by_contra hno
          rw [not_or] at hno
          have hbp : below d p = false := by simpa using hno.1
          have hpp : ¬ ∃ r, '/' ∉ r ∧ p = d ++ '/' :: r := by
            rintro ⟨r, _, hr⟩
            have : below d p = true := (below_iff _ _).2 (Or.inr ⟨r, hr⟩)
            rw [hbp] at this; cases this
          have hfs1 := k5 p hbp
          apply h
          cases hn : collect names doc.figs with
          | error e => exact hfs1
          | ok fns =>
            simp only
            have hcp := copies_below fs1 _ (arxivFiles_dest hcl (exts.map dotted) fns) p hpp
            rcases hc2 : copies fs1 (arxivFiles d (exts.map dotted) fns) with ⟨fs2, _ | e⟩
            · rw [hc2] at hcp
              simp only at hcp ⊢
              cases hb : collect (fun b => (item (reqs b) 0).map (fun t => [t])) doc.bibs with
              | error e => exact hcp.trans hfs1
              | ok bibs =>
                simp only
                rw [out_name fs texfn d hcl]
                obtain ⟨r, hr1, hr2⟩ := out_below fs texfn d
                have hput : find (put fs2 (outName fs texfn d) (.file (render doc))) p = find fs2 p := by
                  rw [find_put, if_neg]
                  intro he
                  exact hpp ⟨r, hr1, by rw [← he, hr2]⟩
                have hcp4 := copies_below (put fs2 (outName fs texfn d) (.file (render doc))) _
                  (arxivBib_dest hcl (put fs2 (outName fs texfn d) (.file (render doc))) (outName fs texfn d) bibs) p hpp
                split
                · rename_i fs4 e hc4
                  rw [hc4] at hcp4
                  simp only at hcp4 ⊢
                  rw [hcp4, hput, hcp, hfs1]
                · rename_i fs4 hc4
                  rw [hc4] at hcp4
                  simp only at hcp4 ⊢
                  rw [archive_frame pack fs4 d _ p hno.2, hcp4, hput, hcp, hfs1]
            · rw [hc2] at hcp
              exact hcp.trans hfs1

/-- No two entries have the same path. -/
def Keys (fs : FS C) : Prop := (fs.map (·.1)).Nodup

theorem keys_put {fs : FS C} (h : Keys fs) (p : Text) (i : Item C) : Keys (put fs p i) := by
  unfold Keys put
  rw [List.map_cons, List.nodup_cons]
  refine ⟨?_, (List.Sublist.map _ List.filter_sublist).nodup h⟩
  intro hm
  obtain ⟨e, he, he'⟩ := List.mem_map.1 hm
  have := (List.mem_filter.1 he).2
  simp only [decide_eq_true_eq] at this
  exact this he'

theorem keys_rmtree {fs : FS C} (h : Keys fs) (d : Text) : Keys (rmtree fs d) :=
  (List.Sublist.map _ List.filter_sublist).nodup h

theorem keys_mkdir {fs : FS C} (h : Keys fs) (d : Text) : Keys (mkdir fs d).1 := by
  unfold mkdir
  split_ifs
  · exact h
  · exact keys_put h _ _

theorem keys_choose {fs : FS C} (h : Keys fs) (nd : Text) (over : Bool) : Keys (chooseDir fs nd over).1 := by
  unfold chooseDir
  simp only
  split
  · exact keys_mkdir h _
  · exact h
  · split_ifs
    · exact keys_mkdir (keys_rmtree h _) _
    · exact keys_mkdir h _

theorem keys_copies (l : List (Text × Text)) : ∀ {fs : FS C}, Keys fs → Keys (copies fs l).1 := by
  induction l with
  | nil => intro fs h; exact h
  | cons e l ih =>
    obtain ⟨s, t⟩ := e
    intro fs h
    simp only [copies]
    split
    · exact ih h
    · exact h
    · split_ifs
      · exact h
      · exact ih (keys_put h _ _)

theorem mem_iff_find {fs : FS C} (h : Keys fs) (p : Text) (i : Item C) : (p, i) ∈ fs ↔ find fs p = some i := by
  induction fs with
  | nil => simp [find]
  | cons e fs ih =>
    obtain ⟨q, j⟩ := e
    unfold Keys at h
    rw [List.map_cons, List.nodup_cons] at h
    simp only [find, List.mem_cons, Prod.mk.injEq]
    by_cases hq : q = p
    · subst hq
      rw [if_pos rfl]
      constructor
      · rintro (⟨_, rfl⟩ | hm)
        · rfl
        · exact absurd (List.mem_map.2 ⟨_, hm, rfl⟩) h.1
      · intro he; cases he; exact Or.inl ⟨rfl, rfl⟩
    · rw [if_neg hq, ← ih h.2]
      constructor
      · rintro (⟨rfl, _⟩ | hm)
        · exact absurd rfl hq
        · exact hm
      · exact Or.inr

theorem split_path (p : Text) : p = base p ∨ p = dirname p ++ '/' :: base p := by
  unfold base dirname
  cases h : p.reverse.dropWhile (fun c => c != '/') with
  | nil =>
    left
    have := List.takeWhile_append_dropWhile (p := fun c => c != '/') (l := p.reverse)
    rw [h, List.append_nil] at this
    rw [this, List.reverse_reverse]
  | cons a l =>
    right
    have h1 := List.takeWhile_append_dropWhile (p := fun c => c != '/') (l := p.reverse)
    have h2 : (p.reverse.dropWhile (fun c => c != '/')).head? = some a := by rw [h]; rfl
    have h3 : a = '/' := by
      have := List.head?_dropWhile_not (fun c => c != '/') p.reverse
      rw [h] at this
      simpa using this
    rw [h, h3] at h1
    have h4 := congrArg List.reverse h1
    rw [List.reverse_reverse, List.reverse_append, List.reverse_cons] at h4
    simp only [List.drop_one, List.tail_cons]
    conv_lhs => rw [← h4]
    simp

/-- The members of an archive are what is in the directory, other than the archive. -/
theorem members_iff {fs : FS C} (hk : Keys fs) (d tfn : Text) (hd : d ≠ []) (n : Text) (i : Item C) :
    (n, i) ∈ members fs d tfn ↔ '/' ∉ n ∧ d ++ '/' :: n ≠ tfn ∧ find fs (d ++ '/' :: n) = some i := by
  unfold members
  rw [List.mem_filterMap]
  constructor
  · rintro ⟨⟨p, j⟩, hm, he⟩
    simp only at he
    split_ifs at he with hc
    simp only [Option.some.injEq, Prod.mk.injEq] at he
    obtain ⟨rfl, rfl⟩ := he
    have hp : p = d ++ '/' :: base p := by
      rcases split_path p with h | h
      · exfalso
        have h1 : dirname p = [] := by
          have hn := base_no_slash p
          rw [← h] at hn
          unfold dirname
          have : p.reverse.dropWhile (fun c => c != '/') = [] := by
            rw [List.dropWhile_eq_nil_iff]
            intro c hcm
            rw [slash_ne]
            rintro rfl
            exact hn (List.mem_reverse.1 hcm)
          rw [this]; rfl
        rw [hc.1] at h1
        exact hd h1
      · rw [hc.1] at h; exact h
    refine ⟨base_no_slash p, ?_, ?_⟩
    · rw [← hp]; exact hc.2.2
    · rw [← hp]; exact (mem_iff_find hk p j).1 hm
  · rintro ⟨h1, h2, h3⟩
    refine ⟨(d ++ '/' :: n, i), (mem_iff_find hk _ _).2 h3, ?_⟩
    simp only [dirname_join d n h1, base_join d n h1]
    rw [if_pos ⟨trivial, by simp, h2⟩]

/-- The bibliography that belongs to a submission: the .bbl file of the .tex file in the current directory, otherwise the .bib file
if there is exactly one `\\bibliography`. -/
def bibFiles (fs : FS C) (d out : Text) (bibs : List Text) : List (Text × Item C) := writes fs (arxivBib fs d out bibs)

/-- C165, C166.  Which file the document is: the one named, with `.tex` added if it is left out and that file exists. -/
theorem document_name (fs : FS C) (t : Text) :
    (".tex".toList <:+ t → texName fs t = t) ∧ (¬ ".tex".toList <:+ t → find fs (t ++ ".tex".toList) ≠ none → texName fs t = t ++ ".tex".toList) ∧
    (find fs (t ++ ".tex".toList) = none → texName fs t = t) := by
  unfold texName ends exist
  refine ⟨fun h => by rw [decide_eq_true h]; rfl, fun h h' => ?_, fun h => by rw [h, Option.isSome_none, Bool.and_false]; rfl⟩
  rw [if_pos]
  rw [decide_eq_false h, Option.isSome_iff_ne_none.2 h']
  rfl

/-- C165.  After a successful run the directory has been found as `Chosen` says, and the files are: the figure files, the .tex file,
the bibliography and the archive, each later one in place of an earlier one of the same name, everything outside the directory as it
was. -/
theorem arxiv_exact (load : FS C → C → Except Err (Doc T)) (render : Doc T → C) (pack : List (Text × Item C) → C) (fs fs' : FS C)
    (texfn nd d : Text) (over : Bool) (exts : List Text) (hw : WF fs) (hk : Keys fs) (hc : Clean (chop nd))
    (h : arxiv load render pack fs texfn nd over exts = (fs', .ok d)) :
    Chosen fs nd over d ∧ ∃ c doc fns bibs, find fs (texName fs texfn) = some (.file c) ∧ load fs c = .ok doc ∧ collect names doc.figs = .ok fns ∧
      collect (fun b => (item (reqs b) 0).map (fun t => [t])) doc.bibs = .ok bibs ∧
      ((∀ fn ∈ fns, ∀ e ∈ exts, below d (fn ++ dotted e) = false) → (∀ b ∈ bibs, below d (b ++ ".bib".toList) = false) →
        ∃ mem : List (Text × Item C),
        (∀ p, find fs' p = (written (writes fs (arxivFiles d (exts.map dotted) fns) ++ [(outName fs texfn d, .file (render doc))] ++
            bibFiles fs d (outName fs texfn d) bibs ++ [(join d (d ++ ".tar.gz".toList), .file (pack mem))]) p).or
            (if p = d then some .dir else if below d p then none else find fs p)) ∧
        (∀ n i, (n, i) ∈ mem ↔ '/' ∉ n ∧ d ++ '/' :: n ≠ join d (d ++ ".tar.gz".toList) ∧ find fs' (d ++ '/' :: n) = some i)) := by
  obtain ⟨c, doc, fs1, fns, fs2, bibs, fs4, h1, h2, h3, h4, h5, h6, h7, h8⟩ := arxiv_inv h
  obtain ⟨k1, k2, k3, k4, k5⟩ := choose_ok hw h3
  have hcl := chosen_clean hc k1
  rw [out_name fs texfn d hcl] at h7
  refine ⟨k1, c, doc, fns, bibs, h1, h2, h4, h6, ?_⟩
  intro hs hsb
  obtain ⟨rfl, _, hpl⟩ := archive_ok h8
  have base1 : ∀ p, find fs1 p = if p = d then some .dir else if below d p then none else find fs p := by
    intro p
    by_cases hp : p = d
    · rw [if_pos hp, hp, k3]
    · rw [if_neg hp]
      by_cases hb : below d p = true
      · rw [if_pos hb, k4 p hb hp]
      · rw [if_neg hb, k5 p (by simpa using hb)]
  -- figures
  have src : ∀ e ∈ arxivFiles d (exts.map dotted) fns, below d e.1 = false := by
    intro e he
    unfold arxivFiles at he
    obtain ⟨fn, hfn, he⟩ := List.mem_flatMap.1 he
    obtain ⟨x, hx, rfl⟩ := List.mem_map.1 he
    obtain ⟨y, hy, rfl⟩ := List.mem_map.1 hx
    exact hs fn hfn y hy
  have hdest := arxivFiles_dest hcl (exts.map dotted) fns
  have e5 := copies_exact (arxivFiles d (exts.map dotted) fns) fs1 (by
    intro e he e' he' heq
    obtain ⟨r, _, hr⟩ := hdest e' he'
    have := src e he
    rw [heq, hr] at this
    have h9 := (below_iff d (d ++ '/' :: r)).2 (Or.inr ⟨r, rfl⟩)
    rw [h9] at this; cases this)
  rw [h5] at e5
  have f2 := e5.2.1 rfl
  have w2 : writes fs1 (arxivFiles d (exts.map dotted) fns) = writes fs (arxivFiles d (exts.map dotted) fns) :=
    writes_congr _ (fun e he => k5 _ (src e he))
  rw [w2] at f2
  -- bibliography
  obtain ⟨r, hr1, hr2⟩ := out_below fs texfn d
  have frame3 : ∀ p, below d p = false → find (put fs2 (outName fs texfn d) (.file (render doc))) p = find fs p := by
    intro p hp
    have hne : ∀ r, p ≠ d ++ '/' :: r := by
      rintro r rfl
      rw [(below_iff d (d ++ '/' :: r)).2 (Or.inr ⟨r, rfl⟩)] at hp; cases hp
    rw [find_put, if_neg (by rw [hr2]; exact Ne.symm (hne r))]
    have := copies_below (d := d) fs1 _ hdest p (by rintro ⟨r, _, hr⟩; exact hne r hr)
    rw [h5] at this
    simp only at this
    rw [this, k5 p hp]
  have hbbl : ∀ t, '/' ∉ t → below d t = true → t = d := by
    intro t ht hb
    rcases (below_iff d t).1 hb with rfl | ⟨r, rfl⟩
    · rfl
    · simp at ht
  have hno : '/' ∉ (base (outName fs texfn d)).dropLast.dropLast.dropLast.dropLast ++ ".bbl".toList := by
    rw [List.mem_append, not_or]
    exact ⟨dropLast_slash _ (dropLast_slash _ (dropLast_slash _ (dropLast_slash _ (base_no_slash _)))), by decide⟩
  have hd3 : find (put fs2 (outName fs texfn d) (.file (render doc))) d = some .dir := by
    rw [find_put, if_neg (by rw [hr2]; simp)]
    have := copies_below (d := d) fs1 _ hdest d (by rintro ⟨r, _, hr⟩; simp at hr)
    rw [h5] at this
    simp only at this
    rw [this, k3]
  have hbd : (base (outName fs texfn d)).dropLast.dropLast.dropLast.dropLast ++ ".bbl".toList ≠ d := by
    intro he
    have : copies (put fs2 (outName fs texfn d) (.file (render doc))) (arxivBib (put fs2 (outName fs texfn d) (.file (render doc))) d
        (outName fs texfn d) bibs) = (put fs2 (outName fs texfn d) (.file (render doc)), some .io) := by
      unfold arxivBib
      simp only
      rw [he, if_pos ((exist_iff _ _).2 ⟨_, hd3⟩)]
      simp only [copies, hd3]
    rw [this] at h7
    cases h7
  have hbf : below d ((base (outName fs texfn d)).dropLast.dropLast.dropLast.dropLast ++ ".bbl".toList) = false := by
    by_contra hb
    exact hbd (hbbl _ hno (by simpa using hb))
  have ebib : arxivBib (put fs2 (outName fs texfn d) (.file (render doc))) d (outName fs texfn d) bibs = arxivBib fs d (outName fs texfn d) bibs := by
    unfold arxivBib exist
    simp only
    rw [frame3 _ hbf]
  rw [ebib] at h7
  have srcb : ∀ e ∈ arxivBib fs d (outName fs texfn d) bibs, below d e.1 = false := by
    intro e he
    unfold arxivBib at he
    simp only at he
    split_ifs at he
    · rw [List.mem_singleton] at he; rw [he]; exact hbf
    · split at he
      · rw [List.mem_singleton] at he; rw [he]; exact hsb _ (List.mem_singleton.2 rfl)
      · cases he
  have hdestb := arxivBib_dest hcl fs (outName fs texfn d) bibs
  have e7 := copies_exact (arxivBib fs d (outName fs texfn d) bibs) (put fs2 (outName fs texfn d) (.file (render doc))) (by
    intro e he e' he' heq
    obtain ⟨r, _, hr⟩ := hdestb e' he'
    have := srcb e he
    rw [heq, hr] at this
    have h9 := (below_iff d (d ++ '/' :: r)).2 (Or.inr ⟨r, rfl⟩)
    rw [h9] at this; cases this)
  rw [h7] at e7
  have f4 := e7.2.1 rfl
  rw [writes_congr (fs' := fs) _ (fun e he => frame3 _ (srcb e he))] at f4
  have hk4 : Keys fs4 := by
    have q1 := keys_choose hk nd over
    rw [h3] at q1
    have q2 := keys_copies (arxivFiles d (exts.map dotted) fns) q1
    rw [h5] at q2
    have q3 := keys_copies (arxivBib fs d (outName fs texfn d) bibs) (keys_put q2 (outName fs texfn d) (.file (render doc)))
    rw [h7] at q3
    exact q3
  refine ⟨members fs4 d (join d (d ++ ".tar.gz".toList)), ?_, ?_⟩
  · intro p
    rw [find_put, f4, find_put, f2, base1, written_append, written_append, written_append]
    unfold bibFiles
    simp only [written]
    split_ifs <;> cases written (writes fs (arxivBib fs d (outName fs texfn d) bibs)) p <;> simp
  · intro n i
    rw [members_iff hk4 d _ hcl.1]
    constructor
    · rintro ⟨a, b, e⟩
      exact ⟨a, b, by rw [find_put, if_neg (Ne.symm b), e]⟩
    · rintro ⟨a, b, e⟩
      rw [find_put, if_neg (Ne.symm b)] at e
      exact ⟨a, b, e⟩

theorem copies_nodir (l : List (Text × Text)) : ∀ (fs : FS C) (p : Text), find (copies fs l).1 p = some .dir → find fs p = some .dir := by
  induction l with
  | nil => intro fs p h; exact h
  | cons e l ih =>
    obtain ⟨s, t⟩ := e
    intro fs p h
    simp only [copies] at h
    cases hf : find fs s with
    | none => rw [hf] at h; exact ih fs p h
    | some i =>
      rw [hf] at h
      cases i with
      | dir => exact h
      | file c =>
        simp only at h
        by_cases hst : s = t
        · rw [if_pos hst] at h; exact h
        · rw [if_neg hst] at h
          have := ih _ p h
          rw [find_put] at this
          split_ifs at this
          · cases this
          · exact this

/-- C165 (a defect).  The archive is to be in the directory, but under the whole name of the directory: with a relative name of more than
one part the run never succeeds. -/
theorem arxiv_nested (load : FS C → C → Except Err (Doc T)) (render : Doc T → C) (pack : List (Text × Item C) → C) (fs fs' : FS C)
    (texfn nd d : Text) (over : Bool) (exts : List Text) (hw : WF fs) (hc : Clean (chop nd))
    (h : arxiv load render pack fs texfn nd over exts = (fs', .ok d)) : '/' ∉ d ∨ d.head? = some '/' := by
  obtain ⟨c, doc, fs1, fns, fs2, bibs, fs4, h1, h2, h3, h4, h5, h6, h7, h8⟩ := arxiv_inv h
  obtain ⟨k1, k2, k3, k4, k5⟩ := choose_ok hw h3
  have hcl := chosen_clean hc k1
  rw [out_name fs texfn d hcl] at h7
  obtain ⟨r, hr1, hr2⟩ := out_below fs texfn d
  obtain ⟨_, _, hpl⟩ := archive_ok h8
  by_contra hno
  rw [not_or, not_not] at hno
  obtain ⟨hsl, hh⟩ := hno
  have hj : join d (d ++ ".tar.gz".toList) = d ++ '/' :: (d ++ ".tar.gz".toList) := by
    unfold join
    have : ¬ (d ++ ".tar.gz".toList).head? = some '/' := by
      cases hd : d with
      | nil => exact absurd hd hcl.1
      | cons a l => rw [hd] at hh; simpa using hh
    rw [if_neg this, if_neg]
    simp only [Bool.or_eq_true, decide_eq_true_eq, not_or]
    exact ⟨by simpa using hcl.1, hcl.2⟩
  rw [hj] at hpl
  unfold placeOk at hpl
  rw [dirname_deep d _ (by simp [hsl]), Bool.or_eq_true, decide_eq_true_eq] at hpl
  rcases hpl with hpl | hpl
  · simp at hpl
  · have hdir : find fs4 (d ++ '/' :: dirname (d ++ ".tar.gz".toList)) = some .dir := by
      split at hpl
      · assumption
      · cases hpl
    have q1 := copies_nodir _ _ _ (by rw [h7]; exact hdir)
    rw [find_put] at q1
    split_ifs at q1
    · cases q1
    have q2 := copies_nodir (arxivFiles d (exts.map dotted) fns) fs1 (d ++ '/' :: dirname (d ++ ".tar.gz".toList)) (by rw [h5]; exact q1)
    rw [k4 _ ((below_iff _ _).2 (Or.inr ⟨_, rfl⟩)) (by simp)] at q2
    cases q2

/-- C165 (a defect).  The figure files end in the directory itself: a figure that the document refers to as `sub/plot` is not where the
document, compiled in the directory, will look for it. -/
theorem arxiv_flat (load : FS C → C → Except Err (Doc T)) (render : Doc T → C) (pack : List (Text × Item C) → C) (fs fs' : FS C)
    (texfn nd d : Text) (over : Bool) (exts : List Text) (hw : WF fs) (hc : Clean (chop nd))
    (h : arxiv load render pack fs texfn nd over exts = (fs', .ok d)) (n : Text) (hn : '/' ∈ n) : find fs' (d ++ '/' :: n) = none := by
  have hnest := arxiv_nested load render pack fs fs' texfn nd d over exts hw hc h
  obtain ⟨c, doc, fs1, fns, fs2, bibs, fs4, h1, h2, h3, h4, h5, h6, h7, h8⟩ := arxiv_inv h
  obtain ⟨k1, k2, k3, k4, k5⟩ := choose_ok hw h3
  have hcl := chosen_clean hc k1
  rw [out_name fs texfn d hcl] at h7
  obtain ⟨r, hr1, hr2⟩ := out_below fs texfn d
  obtain ⟨rfl, _, hpl⟩ := archive_ok h8
  have hp : ¬ ∃ r, '/' ∉ r ∧ d ++ '/' :: n = d ++ '/' :: r := by
    rintro ⟨r, q1, q2⟩
    simp only [List.append_cancel_left_eq, List.cons.injEq, true_and] at q2
    exact q1 (q2 ▸ hn)
  have ht : join d (d ++ ".tar.gz".toList) ≠ d ++ '/' :: n := by
    rcases hnest with hs | hs
    · have hs' : '/' ∉ d ++ ".tar.gz".toList := by
        rw [List.mem_append, not_or]; exact ⟨hs, by decide⟩
      rw [join_clean d _ hcl hs']
      intro he
      simp only [List.append_cancel_left_eq, List.cons.injEq, true_and] at he
      exact hs' (he ▸ hn)
    · unfold join
      rw [if_pos (by rw [List.head?_append, hs]; rfl)]
      intro he
      have : ".tar.gz".toList = '/' :: n := by simpa using he
      have := congrArg List.head? this
      simp at this
  rw [find_put, if_neg ht]
  have q := copies_below (d := d) (put fs2 (outName fs texfn d) (.file (render doc))) _
    (arxivBib_dest hcl (put fs2 (outName fs texfn d) (.file (render doc))) (outName fs texfn d) bibs) (d ++ '/' :: n) hp
  rw [h7] at q
  simp only at q
  rw [q, find_put, if_neg (by rintro he; exact hp ⟨r, hr1, by rw [← he, hr2]⟩)]
  have q' := copies_below (d := d) fs1 _ (arxivFiles_dest hcl (exts.map dotted) fns) (d ++ '/' :: n) hp
  rw [h5] at q'
  simp only at q'
  rw [q', k4 _ ((below_iff _ _).2 (Or.inr ⟨_, rfl⟩)) (by simp)]

theorem last_of_suffix {s p : Text} (hs : s ≠ []) (h : s <:+ p) : p.getLast? = s.getLast? := by
  obtain ⟨t, rfl⟩ := h
  rw [List.getLast?_append]
  cases hg : s.getLast? with
  | none => rw [List.getLast?_eq_none_iff] at hg; exact absurd hg hs
  | some c => rfl

theorem tex_suffix (fs : FS C) (texfn d : Text) : ".tex".toList <:+ outName fs texfn d := by
  unfold outName
  simp only
  split_ifs with h
  · unfold ends at h; exact of_decide_eq_true h
  · exact List.suffix_append _ _

theorem bib_last {d : Text} (hd : Clean d) (fs : FS C) (tex : Text) (bibs : List Text) :
    ∀ e ∈ arxivBib fs d tex bibs, e.2.getLast? = some 'l' ∨ e.2.getLast? = some 'b' := by
  intro e he
  unfold arxivBib at he
  simp only at he
  have hno : '/' ∉ (base tex).dropLast.dropLast.dropLast.dropLast ++ ".bbl".toList := by
    rw [List.mem_append, not_or]
    exact ⟨dropLast_slash _ (dropLast_slash _ (dropLast_slash _ (dropLast_slash _ (base_no_slash _)))), by decide⟩
  split_ifs at he
  · rw [List.mem_singleton] at he
    left
    rw [he]
    simp only
    rw [join_clean d _ hd hno]
    have : ".bbl".toList <:+ d ++ '/' :: ((base tex).dropLast.dropLast.dropLast.dropLast ++ ".bbl".toList) :=
      ⟨d ++ '/' :: (base tex).dropLast.dropLast.dropLast.dropLast, by simp⟩
    rw [last_of_suffix (by decide) this]
    rfl
  · split at he
    · rename_i b
      rw [List.mem_singleton] at he
      right
      rw [he]
      simp only
      rw [join_clean d _ hd (base_no_slash _)]
      have hb : base (b ++ ".bib".toList) = base b ++ ".bib".toList := by
        unfold base
        rw [List.reverse_append, List.takeWhile_append_of_pos, List.reverse_append]
        · simp
        · decide
      rw [hb]
      have : ".bib".toList <:+ d ++ '/' :: (base b ++ ".bib".toList) := ⟨d ++ '/' :: base b, by simp⟩
      rw [last_of_suffix (by decide) this]
      rfl
    · cases he

/-- C165.  The .tex file in the directory is the document. -/
theorem arxiv_tex (load : FS C → C → Except Err (Doc T)) (render : Doc T → C) (pack : List (Text × Item C) → C) (fs fs' : FS C)
    (texfn nd d : Text) (over : Bool) (exts : List Text) (hw : WF fs) (hc : Clean (chop nd))
    (h : arxiv load render pack fs texfn nd over exts = (fs', .ok d)) :
    ∃ c doc, find fs (texName fs texfn) = some (.file c) ∧ load fs c = .ok doc ∧ find fs' (outName fs texfn d) = some (.file (render doc)) := by
  obtain ⟨c, doc, fs1, fns, fs2, bibs, fs4, h1, h2, h3, h4, h5, h6, h7, h8⟩ := arxiv_inv h
  obtain ⟨k1, k2, k3, k4, k5⟩ := choose_ok hw h3
  have hcl := chosen_clean hc k1
  rw [out_name fs texfn d hcl] at h7
  obtain ⟨rfl, _, hpl⟩ := archive_ok h8
  have hlast : (outName fs texfn d).getLast? = some 'x' := by
    rw [last_of_suffix (by decide) (tex_suffix fs texfn d)]; rfl
  have ht : join d (d ++ ".tar.gz".toList) ≠ outName fs texfn d := by
    intro he
    have : ".gz".toList <:+ join d (d ++ ".tar.gz".toList) := by
      unfold join
      split_ifs
      · exact ⟨d ++ ".tar".toList, by simp⟩
      · exact ⟨d ++ (d ++ ".tar".toList), by simp⟩
      · exact ⟨d ++ '/' :: (d ++ ".tar".toList), by simp⟩
    have q := last_of_suffix (by decide) this
    rw [he, hlast] at q
    revert q; decide
  refine ⟨c, doc, h1, h2, ?_⟩
  rw [find_put, if_neg ht]
  have q := copies_frame (arxivBib (put fs2 (outName fs texfn d) (.file (render doc))) d (outName fs texfn d) bibs)
    (put fs2 (outName fs texfn d) (.file (render doc))) (outName fs texfn d) (by
      intro e he heq
      rcases bib_last hcl _ _ _ e he with h | h <;> rw [heq, hlast] at h <;> simp at h)
  rw [h7] at q
  simp only at q
  rw [q, find_put, if_pos rfl]

/-! ## A paper -/

/-- A paper `p.tex` with the figures `a/plot` and `b/plot`, the first one also as .pdf. -/
def paper : FS Nat :=
  [("p.tex".toList, .file 1), ("a".toList, .dir), ("b".toList, .dir), ("a/plot.eps".toList, .file 2), ("a/plot.pdf".toList, .file 3),
    ("b/plot.eps".toList, .file 4), ("p.bbl".toList, .file 5), ("out".toList, .dir), ("out/x".toList, .file 6), ("out_2".toList, .dir)]

def paperDoc : Doc Nat := ⟨[[⟨.plotone, [.req "a/plot".toList]⟩], [⟨.includegraphics, [.opt "width=1".toList, .req "b/plot".toList]⟩]],
  [[.req "refs".toList]], 0⟩

/-- The files of the example afterwards: both figures have the name `plot.eps`, so that only one of them is there. -/
theorem example_arxiv :
    arxiv (fun _ _ => .ok paperDoc) (fun _ => 10) (fun l => 20 + l.length) paper "p".toList "out/".toList false ["eps".toList, ".pdf".toList] =
      ([("out_3/out_3.tar.gz".toList, .file 24), ("out_3/p.bbl".toList, .file 5), ("out_3/p.tex".toList, .file 10), ("out_3/plot.eps".toList, .file 4),
        ("out_3/plot.pdf".toList, .file 3), ("out_3".toList, .dir)] ++ paper, .ok "out_3".toList) := by
  decide +kernel

/-- It is one that the theorems speak of. -/
theorem example_paper : WF paper ∧ Keys paper ∧ Clean (chop "out/".toList) := by
  refine ⟨?_, by unfold Keys; decide +kernel, by unfold Clean; decide⟩
  intro p hp
  have hm := mem_of_exist _ _ hp
  simp only [paper, List.map_cons, List.map_nil, List.mem_cons, List.not_mem_nil, or_false] at hm
  rcases hm with rfl | rfl | rfl | rfl | rfl | rfl | rfl | rfl | rfl | rfl <;> decide +kernel

end Verif.PubPrep
