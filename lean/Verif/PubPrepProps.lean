import Mathlib.Data.List.TakeWhile
import Mathlib.Data.List.Nodup
import Mathlib.Data.List.Perm.Subperm
import Verif.PubPrep

/-!
# What is in the directory of a submission (C165, C166)
-/

namespace Verif.PubPrep

variable {C T : Type}

/-! ## Specification -/

/-- Everything is in a directory that exists. -/
def WF (fs : FS C) : Prop := ∀ p, exist fs p = true → dirname p = [] ∨ find fs (dirname p) = some .dir

/-- The name of a directory without a separator at its end. -/
def Clean (d : Text) : Prop := d ≠ [] ∧ d.getLast? ≠ some '/'

/-- What a list of writes leaves at a path: the last one counts. -/
def written {A : Type} : List (Text × A) → Text → Option A
  | [], _ => none
  | (p, i) :: l, q => match written l q with
    | some j => some j
    | none => if p = q then some i else none

/-- The writes of a list of copies: those whose source exists. -/
def writes (fs : FS C) (l : List (Text × Text)) : List (Text × Item C) := l.filterMap (fun e => (find fs e.1).map (fun i => (e.2, i)))

/-! ## Files -/

theorem find_filter (fs : FS C) (f : Text → Bool) (p : Text) : find (fs.filter (fun e => f e.1)) p = if f p then find fs p else none := by
  induction fs with
  | nil => simp [find]
  | cons e fs ih =>
    obtain ⟨q, i⟩ := e
    by_cases hq : f q
    · rw [List.filter_cons_of_pos (by simpa using hq)]
      simp only [find]
      by_cases h : q = p
      · subst h; simp [hq]
      · simp only [if_neg h, ih]
    · rw [List.filter_cons_of_neg (by simpa using hq), ih]
      simp only [find]
      by_cases h : q = p
      · subst h; simp [hq]
      · simp only [if_neg h]

theorem find_put (fs : FS C) (p q : Text) (i : Item C) : find (put fs p i) q = if p = q then some i else find fs q := by
  unfold put
  simp only [find]
  by_cases h : p = q
  · simp [h]
  · simp only [if_neg h]
    rw [find_filter fs (fun e => decide (e ≠ p))]
    simp [Ne.symm h]

theorem find_rmtree (fs : FS C) (d p : Text) : find (rmtree fs d) p = if below d p then none else find fs p := by
  unfold rmtree
  rw [find_filter fs (fun e => !below d e)]
  cases below d p <;> simp

theorem exist_iff (fs : FS C) (p : Text) : exist fs p = true ↔ ∃ i, find fs p = some i := by
  unfold exist
  rw [Option.isSome_iff_exists]

theorem mem_of_exist (fs : FS C) (p : Text) (h : exist fs p = true) : p ∈ fs.map (·.1) := by
  unfold exist at h
  induction fs with
  | nil => simp [find] at h
  | cons e fs ih =>
    obtain ⟨q, i⟩ := e
    simp only [find] at h
    by_cases hq : q = p
    · simp [hq]
    · rw [if_neg hq] at h
      simp [ih h]

/-! ## Paths -/

theorem slash_ne {c : Char} : (c != '/') = true ↔ c ≠ '/' := by simp

theorem base_no_slash (p : Text) : '/' ∉ base p := by
  unfold base
  rw [List.mem_reverse]
  intro h
  have := List.mem_takeWhile_imp h
  simp at this

theorem takeWhile_append_slash (r d : Text) (h : '/' ∉ r) : (r.reverse ++ '/' :: d).takeWhile (fun c => c != '/') = r.reverse := by
  rw [List.takeWhile_append_of_pos]
  · simp
  · intro c hc
    rw [slash_ne]; rintro rfl; exact h (List.mem_reverse.1 hc)

theorem base_join (d r : Text) (h : '/' ∉ r) : base (d ++ '/' :: r) = r := by
  unfold base
  rw [List.reverse_append, List.reverse_cons, List.append_assoc, List.singleton_append, takeWhile_append_slash r _ h, List.reverse_reverse]

theorem base_plain (r : Text) (h : '/' ∉ r) : base r = r := by
  unfold base
  have : r.reverse.takeWhile (fun c => c != '/') = r.reverse := by
    rw [List.takeWhile_eq_self_iff]
    intro c hc
    rw [slash_ne]; rintro rfl; exact h (List.mem_reverse.1 hc)
  rw [this, List.reverse_reverse]

theorem dirname_join (d r : Text) (h : '/' ∉ r) : dirname (d ++ '/' :: r) = d := by
  unfold dirname
  rw [List.reverse_append, List.reverse_cons, List.append_assoc, List.singleton_append]
  have : (r.reverse ++ '/' :: d.reverse).dropWhile (fun c => c != '/') = '/' :: d.reverse := by
    rw [List.dropWhile_append_of_pos]
    · simp
    · intro c hc
      rw [slash_ne]; rintro rfl; exact h (List.mem_reverse.1 hc)
  rw [this]
  simp

theorem dirname_deep (d r : Text) (h : '/' ∈ r) : dirname (d ++ '/' :: r) = d ++ '/' :: dirname r := by
  unfold dirname
  rw [List.reverse_append, List.reverse_cons, List.append_assoc, List.singleton_append, List.dropWhile_append]
  have hne : r.reverse.dropWhile (fun c => c != '/') ≠ [] := by
    intro he
    rw [List.dropWhile_eq_nil_iff] at he
    have := he '/' (by simpa using h)
    simp at this
  have h1 : (r.reverse.dropWhile (fun c => c != '/')).isEmpty = false := by
    cases hr : r.reverse.dropWhile (fun c => c != '/') with
    | nil => exact absurd hr hne
    | cons => rfl
  rw [h1]
  simp only [Bool.false_eq_true, if_false]
  cases hr : r.reverse.dropWhile (fun c => c != '/') with
  | nil => exact absurd hr hne
  | cons a l => simp

theorem dirname_shorter (r : Text) (h : r ≠ []) : (dirname r).length < r.length := by
  unfold dirname
  have h1 : (r.reverse.dropWhile (fun c => c != '/')).length ≤ r.length := by
    have := (List.dropWhile_suffix (l := r.reverse) (fun c => c != '/')).length_le
    simpa using this
  have h2 : 0 < r.length := List.length_pos_iff.2 h
  rw [List.length_reverse, List.length_drop]
  omega

theorem below_iff (d p : Text) : below d p = true ↔ p = d ∨ ∃ r, p = d ++ '/' :: r := by
  unfold below
  rw [Bool.or_eq_true, decide_eq_true_eq, decide_eq_true_eq]
  constructor
  · rintro (h | ⟨r, h⟩)
    · exact Or.inl h
    · exact Or.inr ⟨r, by rw [← h]; simp⟩
  · rintro (h | ⟨r, h⟩)
    · exact Or.inl h
    · exact Or.inr ⟨r, by rw [h]; simp⟩

theorem join_clean (d b : Text) (hd : Clean d) (hb : '/' ∉ b) : join d b = d ++ '/' :: b := by
  unfold join
  have h1 : ¬ b.head? = some '/' := by
    intro h
    exact hb (List.mem_of_mem_head? h)
  rw [if_neg h1, if_neg]
  simp only [Bool.or_eq_true, decide_eq_true_eq, not_or]
  exact ⟨by simpa using hd.1, hd.2⟩

/-- Where everything is in a directory that exists, there is nothing below what does not exist. -/
theorem nothing_below (fs : FS C) (h : WF fs) (d : Text) (hd : d ≠ []) (hn : find fs d = none) (p : Text) (hp : below d p = true) : find fs p = none := by
  rcases (below_iff d p).1 hp with rfl | ⟨r, rfl⟩
  · exact hn
  · by_contra hc
    have hex : ∀ n (r : Text), r.length ≤ n → find fs (d ++ '/' :: r) ≠ none → False := by
      intro n
      induction n with
      | zero =>
        intro r hr hf
        have : r = [] := List.length_eq_zero_iff.1 (by omega)
        subst this
        obtain ⟨i, hi⟩ := Option.ne_none_iff_exists'.1 hf
        have := h _ ((exist_iff _ _).2 ⟨i, hi⟩)
        rw [dirname_join d [] (by simp)] at this
        rcases this with h1 | h1
        · exact hd h1
        · rw [hn] at h1; cases h1
      | succ n ih =>
        intro r hr hf
        obtain ⟨i, hi⟩ := Option.ne_none_iff_exists'.1 hf
        have := h _ ((exist_iff _ _).2 ⟨i, hi⟩)
        by_cases hs : '/' ∈ r
        · rw [dirname_deep d r hs] at this
          rcases this with h1 | h1
          · simp at h1
          · apply ih (dirname r) _ (by rw [h1]; simp)
            have := dirname_shorter r (by rintro rfl; simp at hs)
            omega
        · rw [dirname_join d r hs] at this
          rcases this with h1 | h1
          · exact hd h1
          · rw [hn] at h1; cases h1
    exact hex r.length r le_rfl hc

/-! ## The directory -/

theorem numbered_inj (d : Text) {m n : Nat} (h : numbered d m = numbered d n) : m = n := by
  unfold numbered at h
  have h1 : TeXFile.str m = TeXFile.str n := by simpa using h
  have := congrArg TeXFile.readNat h1
  rw [TeXFile.readNat_str, TeXFile.readNat_str] at this
  exact Option.some.inj this

theorem firstFree_spec (fs : FS C) (d : Text) (k : Nat) : ∀ n, n ≤ firstFree fs d k n ∧ firstFree fs d k n ≤ n + k ∧
    (∀ m, n ≤ m → m < firstFree fs d k n → exist fs (numbered d m) = true) ∧
    (firstFree fs d k n < n + k → exist fs (numbered d (firstFree fs d k n)) = false) := by
  induction k with
  | zero => intro n; simp only [firstFree]; exact ⟨le_rfl, le_rfl, fun m h1 h2 => by omega, fun h => by omega⟩
  | succ k ih =>
    intro n
    simp only [firstFree]
    by_cases h : exist fs (numbered d n) = true
    · rw [if_pos h]
      obtain ⟨h1, h2, h3, h4⟩ := ih (n + 1)
      refine ⟨by omega, by omega, ?_, fun hl => h4 (by omega)⟩
      intro m hm hl
      by_cases he : m = n
      · subst he; exact h
      · exact h3 m (by omega) hl
    · rw [if_neg h]
      exact ⟨le_rfl, by omega, fun m h1 h2 => by omega, fun _ => by simpa using h⟩

/-- The loop ends at the first number that is free. -/
theorem firstFree_free (fs : FS C) (d : Text) (hd : exist fs d = true) : exist fs (numbered d (firstFree fs d fs.length 2)) = false := by
  obtain ⟨h1, h2, h3, h4⟩ := firstFree_spec fs d fs.length 2
  by_cases hl : firstFree fs d fs.length 2 < 2 + fs.length
  · exact h4 hl
  · exfalso
    have hsub : ∀ x ∈ d :: (List.range fs.length).map (fun k => numbered d (2 + k)), x ∈ fs.map (·.1) := by
      intro x hx
      rcases List.mem_cons.1 hx with rfl | hx
      · exact mem_of_exist _ _ hd
      · obtain ⟨k, hk, rfl⟩ := List.mem_map.1 hx
        rw [List.mem_range] at hk
        exact mem_of_exist _ _ (h3 _ (by omega) (by omega))
    have hnd : (d :: (List.range fs.length).map (fun k => numbered d (2 + k))).Nodup := by
      rw [List.nodup_cons]
      refine ⟨?_, ?_⟩
      · intro hm
        obtain ⟨k, _, hk⟩ := List.mem_map.1 hm
        have := congrArg List.length hk
        simp [numbered] at this
      · refine (List.nodup_range).map ?_
        intro a b hab
        have := numbered_inj d hab
        omega
    have := (hnd.subperm hsub).length_le
    simp at this

/-- How the directory was found. -/
inductive Chosen (fs : FS C) (nd : Text) (over : Bool) : Text → Prop
  | new (h : find fs (chop nd) = none) : Chosen fs nd over (chop nd)
  | over (h : find fs (chop nd) = some .dir) (ho : over = true) : Chosen fs nd over (chop nd)
  | number (n : Nat) (h : find fs (chop nd) = some .dir) (ho : over = false) (hn : 2 ≤ n) (hfree : exist fs (numbered (chop nd) n) = false)
      (hleast : ∀ k, 2 ≤ k → k < n → exist fs (numbered (chop nd) k) = true) : Chosen fs nd over (numbered (chop nd) n)

theorem mkdir_ok {fs fs1 : FS C} {d d' : Text} (h : mkdir fs d = (fs1, .ok d')) :
    d' = d ∧ d ≠ [] ∧ exist fs d = false ∧ placeOk fs d = true ∧ fs1 = put fs d .dir := by
  unfold mkdir at h
  split_ifs at h with hc
  · cases h
  · simp only [Bool.or_eq_true, decide_eq_true_eq, not_or, Bool.not_eq_true, Bool.not_eq_false'] at hc
    cases h
    exact ⟨rfl, hc.1.1, hc.1.2, by simpa using hc.2, rfl⟩

/-- C165.  The directory is `newdir` itself if it is free or to be replaced, otherwise the one with the first free number; it is new and
empty, and nothing else has changed. -/
theorem choose_ok {fs fs1 : FS C} {nd d : Text} {over : Bool} (hw : WF fs) (h : chooseDir fs nd over = (fs1, .ok d)) :
    Chosen fs nd over d ∧ d ≠ [] ∧ find fs1 d = some .dir ∧ (∀ p, below d p = true → p ≠ d → find fs1 p = none) ∧
    (∀ p, below d p = false → find fs1 p = find fs p) := by
  unfold chooseDir at h
  simp only at h
  cases hf : find fs (chop nd) with
  | none =>
    rw [hf] at h
    obtain ⟨rfl, h1, h2, h3, rfl⟩ := mkdir_ok h
    refine ⟨.new hf, h1, by rw [find_put, if_pos rfl], ?_, ?_⟩
    · intro p hp hne
      rw [find_put, if_neg (Ne.symm hne)]
      exact nothing_below fs hw _ h1 hf p hp
    · intro p hp
      rw [find_put, if_neg]
      rintro rfl
      simp [below] at hp
  | some i =>
    cases i with
    | file c => rw [hf] at h; cases h
    | dir =>
      rw [hf] at h
      simp only at h
      split_ifs at h with ho
      · obtain ⟨rfl, h1, h2, h3, rfl⟩ := mkdir_ok h
        refine ⟨.over hf ho, h1, by rw [find_put, if_pos rfl], ?_, ?_⟩
        · intro p hp hne
          rw [find_put, if_neg (Ne.symm hne), find_rmtree, if_pos hp]
        · intro p hp
          rw [find_put, if_neg, find_rmtree, hp]
          · rfl
          · rintro rfl
            simp [below] at hp
      · obtain ⟨rfl, h1, h2, h3, rfl⟩ := mkdir_ok h
        obtain ⟨s1, s2, s3, s4⟩ := firstFree_spec fs (chop nd) fs.length 2
        refine ⟨.number _ hf (by simpa using ho) s1 h2 s3, h1, by rw [find_put, if_pos rfl], ?_, ?_⟩
        · intro p hp hne
          rw [find_put, if_neg (Ne.symm hne)]
          exact nothing_below fs hw _ h1 (by unfold exist at h2; simpa using h2) p hp
        · intro p hp
          rw [find_put, if_neg]
          rintro rfl
          simp [below] at hp

theorem digit_ne_slash {n : Nat} : '/' ∉ TeXFile.str n := by
  intro h
  have := TeXFile.str_digit n '/' h
  revert this; decide

theorem numbered_clean (d : Text) (n : Nat) : Clean (numbered d n) := by
  refine ⟨by simp [numbered], ?_⟩
  intro h
  unfold numbered at h
  rw [List.getLast?_append] at h
  have hs := TeXFile.str_ne n
  rw [List.getLast?_cons_of_ne_nil hs] at h
  cases hg : (TeXFile.str n).getLast? with
  | none => rw [List.getLast?_eq_none_iff] at hg; exact hs hg
  | some c =>
    rw [hg] at h
    simp only [Option.some_or, Option.some.injEq] at h
    subst h
    exact digit_ne_slash (List.mem_of_getLast? hg)

theorem dirname_numbered (d : Text) (n : Nat) : dirname (numbered d n) = dirname d := by
  unfold dirname numbered
  rw [List.reverse_append, List.reverse_cons, List.append_assoc]
  rw [List.dropWhile_append_of_pos]
  · simp
  · intro c hc
    rw [slash_ne]
    rintro rfl
    exact digit_ne_slash (List.mem_reverse.1 hc)

/-- C165.  An existing directory is never in the way: with `overwritedir` it is replaced, otherwise another one is found; a file of that
name is an error. -/
theorem choose_exact (fs : FS C) (nd : Text) (over : Bool) (hw : WF fs) (hd : chop nd ≠ []) :
    (find fs (chop nd) = some .dir → ∃ fs1 d, chooseDir fs nd over = (fs1, .ok d)) ∧
    (∀ c, find fs (chop nd) = some (.file c) → chooseDir fs nd over = (fs, .error .io)) ∧
    (find fs (chop nd) = none → ((∃ fs1 d, chooseDir fs nd over = (fs1, .ok d)) ↔ dirname (chop nd) = [] ∨ find fs (dirname (chop nd)) = some .dir) ∧
      (¬ (dirname (chop nd) = [] ∨ find fs (dirname (chop nd)) = some .dir) → chooseDir fs nd over = (fs, .error .os))) := by
  have hplace : ∀ fs' : FS C, ∀ p, placeOk fs' p = true ↔ dirname p = [] ∨ find fs' (dirname p) = some .dir := by
    intro fs' p
    unfold placeOk
    rw [Bool.or_eq_true, decide_eq_true_eq]
    cases find fs' (dirname p) with
    | none => simp
    | some i => cases i <;> simp
  refine ⟨?_, ?_, ?_⟩
  · intro hf
    have hpar := hw _ ((exist_iff _ _).2 ⟨_, hf⟩)
    unfold chooseDir
    simp only [hf]
    cases over with
    | true =>
      simp only [if_true]
      have e : mkdir (rmtree fs (chop nd)) (chop nd) = (put (rmtree fs (chop nd)) (chop nd) .dir, .ok (chop nd)) := by
        unfold mkdir
        rw [if_neg]
        simp only [Bool.or_eq_true, decide_eq_true_eq, not_or, Bool.not_eq_true, Bool.not_eq_false']
        refine ⟨⟨hd, ?_⟩, ?_⟩
        · unfold exist; rw [find_rmtree]; simp [below]
        · have : placeOk (rmtree fs (chop nd)) (chop nd) = true := by
            rw [hplace]
            rcases hpar with h | h
            · exact Or.inl h
            · right
              rw [find_rmtree, if_neg, h]
              intro hb
              have h1 := dirname_shorter _ hd
              rcases (below_iff _ _).1 hb with h2 | ⟨r, h2⟩
              · rw [h2] at h1; omega
              · have := congrArg List.length h2
                simp at this; omega
          simpa using this
      exact ⟨_, _, e⟩
    | false =>
      simp only [Bool.false_eq_true, if_false]
      have e : mkdir fs (numbered (chop nd) (firstFree fs (chop nd) fs.length 2)) =
          (put fs (numbered (chop nd) (firstFree fs (chop nd) fs.length 2)) .dir, .ok (numbered (chop nd) (firstFree fs (chop nd) fs.length 2))) := by
        unfold mkdir
        rw [if_neg]
        simp only [Bool.or_eq_true, decide_eq_true_eq, not_or, Bool.not_eq_true, Bool.not_eq_false']
        refine ⟨⟨(numbered_clean _ _).1, firstFree_free fs _ ((exist_iff _ _).2 ⟨_, hf⟩)⟩, ?_⟩
        have : placeOk fs (numbered (chop nd) (firstFree fs (chop nd) fs.length 2)) = true := by
          rw [hplace, dirname_numbered]; exact hpar
        simpa using this
      exact ⟨_, _, e⟩
  · intro c hf
    unfold chooseDir
    simp only [hf]
  · intro hf
    unfold chooseDir
    simp only [hf]
    unfold mkdir
    have hex : exist fs (chop nd) = false := by unfold exist; rw [hf]; rfl
    by_cases hp : placeOk fs (chop nd) = true
    · have hp' := (hplace _ _).1 hp
      rw [if_neg (by simp [hd, hex, hp])]
      exact ⟨⟨fun _ => hp', fun _ => ⟨_, _, rfl⟩⟩, fun h => absurd hp' h⟩
    · have hp' := mt (hplace _ _).2 hp
      have hpf : placeOk fs (chop nd) = false := by simpa using hp
      rw [if_pos (by simp [hpf])]
      refine ⟨⟨?_, fun h => absurd h hp'⟩, fun _ => rfl⟩
      rintro ⟨fs1, d, h⟩
      cases h

end Verif.PubPrep
