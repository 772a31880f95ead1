import Verif.SourceProps

/-!
# More about sources (C21): stripping, codes, collection
-/

namespace Verif.Source

theorem dropWhile_split (s : Str) : ∃ a, s = a ++ s.dropWhile isWs ∧ (∀ c ∈ a, isWs c = true) ∧
    ∀ c, (s.dropWhile isWs).head? = some c → isWs c = false := by
  induction s with
  | nil => exact ⟨[], rfl, by simp, by simp⟩
  | cons c s ih =>
    by_cases hc : isWs c = true
    · obtain ⟨a, h1, h2, h3⟩ := ih
      refine ⟨c :: a, ?_, ?_, ?_⟩
      · rw [List.dropWhile_cons_of_pos hc, List.cons_append, ← h1]
      · intro x hx
        rcases List.mem_cons.mp hx with rfl | hx
        · exact hc
        · exact h2 x hx
      · rw [List.dropWhile_cons_of_pos hc]; exact h3
    · refine ⟨[], ?_, by simp, ?_⟩
      · rw [List.dropWhile_cons_of_neg hc]; rfl
      · rw [List.dropWhile_cons_of_neg hc]
        intro x hx
        simp only [List.head?_cons, Option.some.injEq] at hx
        subst hx
        simpa using hc

/-- `strip` takes blanks off both ends and nothing else. -/
theorem strip_spec (s : Str) : ∃ a b, s = a ++ strip s ++ b ∧ (∀ c ∈ a, isWs c = true) ∧ (∀ c ∈ b, isWs c = true) ∧
    (∀ c, (strip s).head? = some c → isWs c = false) ∧ (∀ c, (strip s).getLast? = some c → isWs c = false) := by
  obtain ⟨a, h1, h2, h3⟩ := dropWhile_split s
  obtain ⟨b, h4, h5, h6⟩ := dropWhile_split (s.dropWhile isWs).reverse
  have hs : strip s = (((s.dropWhile isWs).reverse).dropWhile isWs).reverse := rfl
  have h7 : s.dropWhile isWs = strip s ++ b.reverse := by
    have := congrArg List.reverse h4
    rw [List.reverse_reverse, List.reverse_append] at this
    rw [hs]; exact this
  refine ⟨a, b.reverse, by rw [List.append_assoc, ← h7]; exact h1, h2, by simpa using h5, ?_, ?_⟩
  · intro c hc
    apply h3 c
    rw [h7]
    cases hs' : strip s with
    | nil => rw [hs'] at hc; simp at hc
    | cons x xs => rw [hs'] at hc; simpa using hc
  · intro c hc
    apply h6 c
    rw [hs, List.getLast?_reverse] at hc
    exact hc

/-- Stripping a padded clean string gives the string. -/
theorem strip_padded (a s b : Str) (ha : ∀ c ∈ a, isWs c = true) (hb : ∀ c ∈ b, isWs c = true) (hs : strip s = s) :
    strip (a ++ s ++ b) = s := by
  have hdrop : ∀ (a s : Str), (∀ c ∈ a, isWs c = true) → (a ++ s).dropWhile isWs = s.dropWhile isWs := by
    intro a s h
    induction a with
    | nil => rfl
    | cons c a ih =>
      rw [List.cons_append, List.dropWhile_cons_of_pos (h c (by simp))]
      exact ih (fun x hx => h x (by simp [hx]))
  have hstrip : ∀ x : Str, (∀ c ∈ x, isWs c = true) → strip x = [] := by
    intro x hx
    have := hdrop x [] hx
    simp only [List.append_nil, List.dropWhile_nil] at this
    simp [strip, this]
  cases hs0 : s with
  | nil =>
    apply hstrip
    intro c hc
    simp only [List.append_nil] at hc
    rcases List.mem_append.mp hc with h | h
    · exact ha c h
    · exact hb c h
  | cons c0 s0 =>
    obtain ⟨_, _, _, _, _, hhead, hlast⟩ := strip_spec s
    rw [hs] at hhead hlast
    have hd1 : ∀ b, ((c0 :: s0) ++ b).dropWhile isWs = (c0 :: s0) ++ b := by
      intro b
      rw [List.cons_append, List.dropWhile_cons_of_neg]
      have := hhead c0 (by rw [hs0]; rfl)
      simp [this]
    have hs1 : ((c0 :: s0).reverse).dropWhile isWs = (c0 :: s0).reverse := by
      cases hr : (c0 :: s0).reverse with
      | nil => simp at hr
      | cons y ys =>
        rw [List.dropWhile_cons_of_neg]
        have : s.getLast? = some y := by
          rw [hs0, ← List.head?_reverse, hr]; rfl
        simp [hlast y this]
    unfold strip
    rw [List.append_assoc, hdrop _ _ ha, hd1, List.reverse_append, hdrop _ _ (by simpa using hb), hs1, List.reverse_reverse]

theorem strip_idem (s : Str) : strip (strip s) = strip s := by
  obtain ⟨_, _, _, _, _, h3, h4⟩ := strip_spec s
  generalize strip s = t at h3 h4
  cases t with
  | nil => rfl
  | cons c t =>
    have h1 : (c :: t).dropWhile isWs = c :: t := by
      rw [List.dropWhile_cons_of_neg]; simp [h3 c rfl]
    have h2 : ((c :: t).reverse).dropWhile isWs = (c :: t).reverse := by
      cases hr : (c :: t).reverse with
      | nil => simp at hr
      | cons y ys =>
        rw [List.dropWhile_cons_of_neg]
        have : (c :: t).getLast? = some y := by rw [← List.head?_reverse, hr]; rfl
        simp [h4 y this]
    unfold strip
    rw [h1, h2, List.reverse_reverse]

/-- **C21**, strings: in `'name//code'` blanks around the name and the code do not matter. -/
theorem blanks_ignored (find : Str → Option Str) (w1 nm w2 w3 a w4 : Str) (h1 : ∀ c ∈ w1, isWs c = true)
    (h2 : ∀ c ∈ w2, isWs c = true) (h3 : ∀ c ∈ w3, isWs c = true) (h4 : ∀ c ∈ w4, isWs c = true)
    (hn : strip nm = nm) (ha : strip a = a) (hs : '/' ∉ a) :
    parse find (w1 ++ nm ++ w2 ++ '/' :: '/' :: (w3 ++ a ++ w4)) none = some (nm, some a) := by
  have hws : ∀ w : Str, (∀ c ∈ w, isWs c = true) → '/' ∉ w := by
    intro w hw hm
    have := hw _ hm
    simp [isWs] at this
  have hsl : '/' ∉ w3 ++ a ++ w4 := by
    simp only [List.mem_append, not_or]
    exact ⟨⟨hws _ h3, hs⟩, hws _ h4⟩
  have hsp : split (w1 ++ nm ++ w2 ++ '/' :: '/' :: (w3 ++ a ++ w4))
      = (split (w1 ++ nm ++ w2) ++ [[]]) ++ [w3 ++ a ++ w4] := by
    rw [split_append]
    have : split ('/' :: (w3 ++ a ++ w4)) = [[], w3 ++ a ++ w4] := by simp only [split, split_noslash _ hsl, if_true]
    rw [this]; simp
  have hmem : '/' ∈ w1 ++ nm ++ w2 ++ '/' :: '/' :: (w3 ++ a ++ w4) := by simp
  simp only [parse, hmem, and_self, if_true, hsp, List.dropLast_concat, List.getLastD_concat, join_split,
    strip_padded _ _ _ h1 h2 hn, strip_padded _ _ _ h3 h4 ha]

/-- **C21**, codes: looking a live source up by its bare name changes no source. -/
theorem bare_lookup_keeps_codes (find : Str → Option Str) (ops : List Op) (o : Obj)
    (ho : o ∈ (run find init ops).objs) (s : Str) (b : Option Str) (hp : parse find s b = some (o.str, none)) :
    (create find (run find init ops) s b).2 = some o.id ∧
    (create find (run find init ops) s b).1.objs = (run find init ops).objs := by
  have hi := inv_run find ops init inv_init
  generalize run find init ops = st at *
  simp only [create, hp, intern]
  cases hf : st.objs.find? (fun p => p.str = o.str) with
  | none =>
    have := List.find?_eq_none.mp hf o ho
    simp at this
  | some p =>
    have hpm := List.mem_of_find?_eq_some hf
    have hps := List.find?_some hf
    simp only [decide_eq_true_eq] at hps
    have hpo : p = o := List.inj_on_of_nodup_map hi.strs hpm ho hps
    subst hpo
    simp

/-- **C21**, codes: naming a live source together with a code gives it that code, and changes no other source. -/
theorem lookup_sets_code (find : Str → Option Str) (ops : List Op) (o : Obj)
    (ho : o ∈ (run find init ops).objs) (s : Str) (b : Option Str) (a : Str)
    (hp : parse find s b = some (o.str, some a)) :
    (create find (run find init ops) s b).2 = some o.id ∧
    { o with ads := some a } ∈ (create find (run find init ops) s b).1.objs ∧
    ∀ p ∈ (run find init ops).objs, p.id ≠ o.id → p ∈ (create find (run find init ops) s b).1.objs := by
  have hi := inv_run find ops init inv_init
  generalize run find init ops = st at *
  simp only [create, hp, intern]
  cases hf : st.objs.find? (fun p => p.str = o.str) with
  | none =>
    have := List.find?_eq_none.mp hf o ho
    simp at this
  | some p =>
    have hpm := List.mem_of_find?_eq_some hf
    have hps := List.find?_some hf
    simp only [decide_eq_true_eq] at hps
    have hpo : p = o := List.inj_on_of_nodup_map hi.strs hpm ho hps
    subst hpo
    dsimp only
    split
    · refine ⟨rfl, List.mem_map.mpr ⟨p, ho, by simp⟩, fun q hq hne => List.mem_map.mpr ⟨q, hq, by simp [hne]⟩⟩
    · rename_i hc
      simp only [ne_eq, reduceCtorEq, not_false_eq_true, true_and, not_not] at hc
      refine ⟨rfl, ?_, fun q hq _ => hq⟩
      rw [hc]; exact ho

/-- **C21**, collection: collecting a source removes it and no other; a source created later under its name is a new
object, different from every object that ever lived before. -/
theorem collect_removes_only (find : Str → Option Str) (ops : List Op) (o : Obj)
    (ho : o ∈ (run find init ops).objs) :
    (∀ p, p ∈ (collect (run find init ops) o.id).objs ↔ p ∈ (run find init ops).objs ∧ p ≠ o) ∧
    ∀ s b a i, parse find s b = some (o.str, a) →
      (create find (collect (run find init ops) o.id) s b).2 = some i →
        ∀ p ∈ (run find init ops).objs, p.id < i := by
  have hi := inv_run find ops init inv_init
  generalize run find init ops = st at *
  refine ⟨?_, ?_⟩
  · intro p
    simp only [collect, List.mem_filter, decide_eq_true_eq, ne_eq]
    constructor
    · rintro ⟨h1, h2⟩; exact ⟨h1, fun e => h2 (by rw [e])⟩
    · rintro ⟨h1, h2⟩; exact ⟨h1, fun e => h2 (List.inj_on_of_nodup_map hi.ids h1 ho e)⟩
  · intro s b a i hp hc p hpm
    simp only [create, hp, intern] at hc
    have hnone : (collect st o.id).objs.find? (fun q => q.str = o.str) = none := by
      apply List.find?_eq_none.mpr
      intro q hq
      simp only [collect, List.mem_filter, decide_eq_true_eq, ne_eq] at hq
      simp only [decide_eq_true_eq]
      intro hs
      exact hq.2 (by rw [List.inj_on_of_nodup_map hi.strs hq.1 ho hs])
    rw [hnone] at hc
    simp only [Option.some.injEq] at hc
    rw [← hc]
    exact hi.fresh p hpm

/-- Instances. -/
example : parse some "  Smith 2001  // x1 ".toList none = some ("Smith 2001".toList, some "x1".toList) := by decide
example : let st := run some init [.create "Smith//x1".toList none, .create "Jones".toList none]
    (create some st "Smith".toList none).1.objs = st.objs ∧
    (create some (collect st 0) "Smith".toList none).2 = some 2 := by decide

end Verif.Source
