import Verif.SpecAxisProps
import Mathlib.Data.List.TakeWhile

/-! # Alignment of spectra: theorems (C151; astropysics/spec.py 1852-1905) -/

namespace Verif.SpecAxis

open Classical

/-! ## Specification -/

/-- The spectrum `s` put on the axis `x`: its flux and error are read off by linear interpolation. -/
noncomputable def onto (x : List ℝ) (s : Sp) : Sp :=
  { s with x := x, flux := x.map (interp s.x s.flux), err := x.map (interp s.x s.err) }

/-- The mean step of a spectrum, in `log10 x` for the logarithmic modes. -/
noncomputable def stepOf (mode : List Char) (s : Sp) : ℝ :=
  if contains "log".toList mode then meanStep (s.x.map log10) else meanStep s.x

/-- The modes that are accepted. -/
def Known (mode : List Char) : Prop := "super".toList <:+: mode ∨ "sub".toList <:+: mode

/-- Position `i` holds the first of the spectra with the largest step. -/
def Coarsest (mode : List Char) (specs : List Sp) (i : Nat) : Prop :=
  ∃ t, specs[i]? = some t ∧ (∀ s ∈ specs, stepOf mode s ≤ stepOf mode t) ∧
    ∀ j, j < i → ∀ s, specs[j]? = some s → stepOf mode s < stepOf mode t

/-! ## Lemmas -/

theorem collect_ok {α β : Type} {f : α → Except Err β} {g : α → β} : ∀ {l : List α}, (∀ a ∈ l, f a = .ok (g a)) → collect f l = .ok (l.map g)
  | [], _ => rfl
  | a :: l, h => by
    rw [collect, h a (by simp)]
    simp only [collect_ok (l := l) (fun b hb => h b (by simp [hb]))]
    rfl

theorem foldl_max_ge : ∀ (l : List ℝ) (a : ℝ), a ≤ l.foldl max a ∧ (∀ b ∈ l, b ≤ l.foldl max a) ∧ (l.foldl max a = a ∨ l.foldl max a ∈ l)
  | [], a => by simp
  | b :: l, a => by
    obtain ⟨h1, h2, h3⟩ := foldl_max_ge l (max a b)
    refine ⟨(le_max_left a b).trans h1, ?_, ?_⟩
    · intro c hc
      rcases List.mem_cons.1 hc with rfl | hc
      · exact (le_max_right a c).trans h1
      · exact h2 c hc
    · rw [List.foldl_cons]
      rcases h3 with h3 | h3
      · rcases max_choice a b with h | h
        · exact .inl (h3.trans h)
        · exact .inr (by rw [h3, h]; simp)
      · exact .inr (by simp [h3])

theorem npMax_mem {l : List ℝ} (h : l ≠ []) : npMax l ∈ l ∧ ∀ b ∈ l, b ≤ npMax l := by
  cases l with
  | nil => exact absurd rfl h
  | cons a l =>
    have := foldl_max_ge (a :: l) a
    refine ⟨?_, this.2.1⟩
    rcases this.2.2 with h | h
    · show List.foldl max a (a :: l) ∈ a :: l
      rw [h]; simp
    · exact h

/-- C151.  The template is the first of the spectra with the largest mean step, in every mode. -/
theorem template_exact {specs : List Sp} (mode : List Char) (hne : specs ≠ []) (hn : ∀ s ∈ specs, 2 ≤ s.x.length) :
    ∃ i, templateIndex mode specs = .ok i ∧ Coarsest mode specs i := by
  have hrs : (if contains "log".toList mode then collect (fun s : Sp => getDlogxMean s.x 10) specs
      else collect (fun s : Sp => getDxMean s.x) specs) = .ok (specs.map (stepOf mode)) := by
    by_cases hm : contains "log".toList mode
    · rw [if_pos hm]
      apply collect_ok
      intro s hs
      show getDxMean (s.x.map log10) = _
      rw [dx_mean _ (by simpa using hn s hs), stepOf, if_pos hm]
    · rw [if_neg hm]
      apply collect_ok
      intro s hs
      rw [dx_mean _ (hn s hs), stepOf, if_neg hm]
  have hne' : specs.map (stepOf mode) ≠ [] := by simpa using hne
  obtain ⟨hmem, hub⟩ := npMax_mem hne'
  set rs := specs.map (stepOf mode) with hrsdef
  have hlt : rs.findIdx (fun r => decide (r = npMax rs)) < rs.length :=
    List.findIdx_lt_length_of_exists ⟨_, hmem, by simp⟩
  refine ⟨rs.findIdx (fun r => decide (r = npMax rs)), ?_, ?_⟩
  · simp only [templateIndex, hrs]
    cases hc : rs with
    | nil => exact absurd hc hne'
    | cons a l => simp
  · have hget : stepOf mode (specs[rs.findIdx (fun r => decide (r = npMax rs))]'(by simpa [hrsdef] using hlt)) = npMax rs := by
      have := List.findIdx_getElem (w := hlt) (p := fun r => decide (r = npMax rs)) (xs := rs)
      simpa [hrsdef] using this
    refine ⟨_, List.getElem?_eq_getElem (by simpa [hrsdef] using hlt), ?_, ?_⟩
    · intro s hs
      rw [hget]
      exact hub _ (List.mem_map_of_mem hs)
    · intro j hj s hsj
      rw [hget]
      have h1 := hub (stepOf mode s) (List.mem_map_of_mem (List.mem_of_getElem? hsj))
      refine lt_of_le_of_ne h1 ?_
      have hjl : j < rs.length := by omega
      have := List.not_of_lt_findIdx hj
      have hs' : rs[j] = stepOf mode s := by
        obtain ⟨hj', rfl⟩ := List.getElem?_eq_some_iff.1 hsj
        simp [hrsdef]
      rw [hs'] at this
      simpa using this

theorem coarsest_unique {mode : List Char} {specs : List Sp} {i j : Nat} (hi : Coarsest mode specs i) (hj : Coarsest mode specs j) : i = j := by
  obtain ⟨s, hs, h1, h2⟩ := hi
  obtain ⟨t, ht, h3, h4⟩ := hj
  rcases Nat.lt_trichotomy i j with h | h | h
  · exact absurd (h1 t (List.mem_of_getElem? ht)) (not_le.2 (h4 i h s hs))
  · exact h
  · exact absurd (h3 s (List.mem_of_getElem? hs)) (not_le.2 (h2 j h t ht))

theorem resampleAll_exact (x : List ℝ) : ∀ {specs : List Sp}, (∀ s ∈ specs, WF s) →
    resampleAll x specs = ((specs.takeWhile (fun s => s.x.length == x.length)).map (onto x) ++ specs.dropWhile (fun s => s.x.length == x.length),
      if specs.all (fun s => s.x.length == x.length) then none else some .value)
  | [], _ => rfl
  | s :: l, h => by
    have hs := h s (by simp)
    have ih := resampleAll_exact x (specs := l) (fun t ht => h t (by simp [ht]))
    have he := resample_exact hs x
    by_cases hl : x.length = s.x.length
    · simp only [resampleAll, he.1 hl, ih]
      simp [List.takeWhile_cons, List.dropWhile_cons, hl, onto]
    · simp only [resampleAll, he.2.1 hl]
      simp [List.takeWhile_cons, List.dropWhile_cons, Ne.symm hl]

theorem wf_two {specs : List Sp} {i : Nat} {t : Sp} (h : specs[i]? = some t) : t ∈ specs := List.mem_of_getElem? h

/-- C151.  Aligning, in full.  With proper spectra of at least two pixels and a known mode there is a template, the first
spectrum with the largest step.  If all spectra have as many pixels as the template, all of them end up on its axis with
their interpolated values.  Otherwise ValueError is raised, and the spectra before the first one with another number of
pixels have already been changed while that one and all later ones have not. -/
theorem align_exact {specs : List Sp} {mode : List Char} (hne : specs ≠ []) (hwf : ∀ s ∈ specs, WF s) (hn : ∀ s ∈ specs, 2 ≤ s.x.length)
    (hp : ∀ s ∈ specs, s.plain = true) (hm : Known mode) : ∃ (i : Nat) (t : Sp), Coarsest mode specs i ∧ specs[i]? = some t ∧
      ((∀ s ∈ specs, s.x.length = t.x.length) → alignSpectra specs mode false = (specs.map (onto t.x), .ok (specs.map (onto t.x)))) ∧
      ((∃ s ∈ specs, s.x.length ≠ t.x.length) → ∃ pre s post, specs = pre ++ s :: post ∧ (∀ p ∈ pre, p.x.length = t.x.length) ∧
        s.x.length ≠ t.x.length ∧ alignSpectra specs mode false = (pre.map (onto t.x) ++ s :: post, .error .value)) := by
  obtain ⟨i, hi, hc⟩ := template_exact mode hne hn
  obtain ⟨t, ht, h1, h2⟩ := hc
  have hany : (specs.any fun s => !s.plain) = false := by
    rw [List.any_eq_false]
    intro s hs
    simp [hp s hs]
  have hk : (!(contains "super".toList mode) && !(contains "sub".toList mode)) = false := by
    rcases hm with h | h
    · have : contains "super".toList mode = true := decide_eq_true h
      rw [this]; rfl
    · have : contains "sub".toList mode = true := decide_eq_true h
      rw [this]; simp
  have hbase : alignSpectra specs mode false = (match (resampleAll t.x specs).2 with
      | some e => ((resampleAll t.x specs).1, .error e)
      | none => ((resampleAll t.x specs).1, .ok (resampleAll t.x specs).1)) := by
    simp only [alignSpectra, hany, hk, hi, ht, Option.map_some, Option.getD_some, Bool.false_eq_true, if_false]
    cases (resampleAll t.x specs).2 <;> rfl
  refine ⟨i, t, ⟨t, ht, h1, h2⟩, ht, ?_, ?_⟩
  · intro hall
    have ha : specs.all (fun s => s.x.length == t.x.length) = true := by
      rw [List.all_eq_true]; intro s hs; simpa using hall s hs
    rw [hbase, resampleAll_exact t.x hwf, if_pos ha]
    have e1 : specs.takeWhile (fun s => s.x.length == t.x.length) = specs :=
      List.takeWhile_eq_self_iff.2 (fun s hs => by simpa using hall s hs)
    have e2 : specs.dropWhile (fun s => s.x.length == t.x.length) = [] :=
      List.dropWhile_eq_nil_iff.2 (fun s hs => by simpa using hall s hs)
    simp only [e1, e2, List.append_nil]
  · rintro ⟨b, hb, hbl⟩
    have ha : specs.all (fun s => s.x.length == t.x.length) = false := by
      rw [List.all_eq_false]; exact ⟨b, hb, by simpa using hbl⟩
    have hd : specs.dropWhile (fun s => s.x.length == t.x.length) ≠ [] := by
      intro h
      have := List.dropWhile_eq_nil_iff.1 h b hb
      exact hbl (by simpa using this)
    obtain ⟨s, post, hsp⟩ := List.exists_cons_of_ne_nil hd
    refine ⟨specs.takeWhile (fun s => s.x.length == t.x.length), s, post, ?_, ?_, ?_, ?_⟩
    · rw [← hsp]; exact (List.takeWhile_append_dropWhile).symm
    · intro p hp'
      have := List.mem_takeWhile_imp hp'
      simpa using this
    · have := List.head_dropWhile_not (p := fun s : Sp => s.x.length == t.x.length) (w := hd)
      simp only [hsp, List.head_cons] at this
      simpa using this
    · rw [hbase, resampleAll_exact t.x hwf, ha, hsp]
      rfl

/-- C151.  After a successful alignment all spectra have the axis of the template, and the template itself, like every other
spectrum that had this axis already, is unchanged. -/
theorem align_common_axis {specs : List Sp} {mode : List Char} (hne : specs ≠ []) (hwf : ∀ s ∈ specs, WF s) (hn : ∀ s ∈ specs, 2 ≤ s.x.length)
    (hp : ∀ s ∈ specs, s.plain = true) (hm : Known mode) (hl : ∀ s ∈ specs, ∀ t ∈ specs, s.x.length = t.x.length) :
    ∃ (i : Nat) (t : Sp) (out : List Sp), Coarsest mode specs i ∧ specs[i]? = some t ∧ alignSpectra specs mode false = (out, .ok out) ∧ out.length = specs.length ∧
      (∀ o ∈ out, o.x = t.x) ∧ ∀ (j : Nat) (s : Sp), specs[j]? = some s → s.x = t.x → out[j]? = some s := by
  obtain ⟨i, t, hc, ht, h1, _⟩ := align_exact hne hwf hn hp hm
  refine ⟨i, t, specs.map (onto t.x), hc, ht, h1 (fun s hs => hl s hs t (List.mem_of_getElem? ht)), by simp, ?_, ?_⟩
  · intro o ho
    obtain ⟨s, _, rfl⟩ := List.mem_map.1 ho
    rfl
  · intro j s hj hx
    have hw := hwf s (List.mem_of_getElem? hj)
    rw [List.getElem?_map, hj]
    simp only [Option.map_some, onto, ← hx]
    rw [interp_own hw.inc hw.flux, interp_own hw.inc hw.err]

/-- C151 (defect).  'super' is meant to resample to the spectrum with the highest resolution and 'sub' to the lowest; the two do the
same thing.  The same holds of 'logsuper' and 'logsub'. -/
theorem super_is_sub (specs : List Sp) (copy : Bool) :
    alignSpectra specs "super".toList copy = alignSpectra specs "sub".toList copy ∧
      alignSpectra specs "logsuper".toList copy = alignSpectra specs "logsub".toList copy := by
  have hb : ∀ m m' : List Char, contains "log".toList m = contains "log".toList m' →
      (!(contains "super".toList m) && !(contains "sub".toList m)) = false → (!(contains "super".toList m') && !(contains "sub".toList m')) = false →
      alignSpectra specs m copy = alignSpectra specs m' copy := by
    intro m m' h1 h2 h3
    have : templateIndex m specs = templateIndex m' specs := by
      simp only [templateIndex, h1, ite_self]
    simp only [alignSpectra, h2, h3, this]
  constructor
  · exact hb _ _ (by decide) (by decide) (by decide)
  · exact hb _ _ (by decide) (by decide) (by decide)

/-- C151.  An unknown mode, or a spectrum of another class, raises ValueError and changes nothing. -/
theorem align_refused (specs : List Sp) (mode : List Char) (copy : Bool)
    (h : ¬ Known mode ∨ ∃ s ∈ specs, s.plain = false) : alignSpectra specs mode copy = (specs, .error .value) := by
  by_cases hs : ∃ s ∈ specs, s.plain = false
  · have : (specs.any fun s => !s.plain) = true := by
      obtain ⟨s, hs, hp⟩ := hs
      exact List.any_eq_true.2 ⟨s, hs, by simp [hp]⟩
    simp [alignSpectra, this]
  · have hk : ¬ Known mode := h.resolve_right hs
    have : (!(contains "super".toList mode) && !(contains "sub".toList mode)) = true := by
      simp only [Known, not_or] at hk
      rw [show contains "super".toList mode = false from decide_eq_false hk.1, show contains "sub".toList mode = false from decide_eq_false hk.2]; rfl
    simp only [alignSpectra, this, if_true, ite_self]

theorem collect_err {α β : Type} {f : α → Except Err β} {e : Err} : ∀ {l : List α}, (∀ a ∈ l, f a = .error e ∨ ∃ b, f a = .ok b) →
    (∃ a ∈ l, f a = .error e) → collect f l = .error e
  | [], _, h => by obtain ⟨a, ha, _⟩ := h; cases ha
  | a :: l, h, h2 => by
    rw [collect]
    rcases h a (by simp) with h1 | ⟨b, h1⟩
    · rw [h1]
    · have : ∃ a ∈ l, f a = .error e := by
        obtain ⟨c, hc, he⟩ := h2
        rcases List.mem_cons.1 hc with rfl | hc
        · rw [h1] at he; cases he
        · exact ⟨c, hc, he⟩
      rw [h1]
      simp only [collect_err (l := l) (fun b hb => h b (by simp [hb])) this]

theorem conv_cases (a : List ℝ) : (a = [] → convValid a [1, -1] = .error .value) ∧ ∃ b, convValid a [1, -1] = .error .value ∨ convValid a [1, -1] = .ok b := by
  refine ⟨by rintro rfl; rfl, ?_⟩
  unfold convValid
  split_ifs
  · exact ⟨[], Or.inl rfl⟩
  all_goals exact ⟨_, Or.inr rfl⟩

/-- C151.  A spectrum without pixels, or no spectrum at all, is refused and nothing changes. -/
theorem align_empty (specs : List Sp) (mode : List Char) (copy : Bool) (h : specs = [] ∨ ∃ s ∈ specs, s.x = []) :
    alignSpectra specs mode copy = (specs, .error .value) := by
  have ht : templateIndex mode specs = .error .value := by
    rcases h with rfl | ⟨s, hs, he⟩
    · simp [templateIndex, collect]
    · have k1 : collect (fun s : Sp => getDlogxMean s.x 10) specs = .error .value := by
        apply collect_err
        · intro a _
          obtain ⟨b, hb | hb⟩ := (conv_cases (a.x.map fun t => Real.log t / Real.log 10)).2
          · left; simp only [getDlogxMean, getDlogx, hb]; rfl
          · right; simp only [getDlogxMean, getDlogx, hb]; exact ⟨_, rfl⟩
        · refine ⟨s, hs, ?_⟩
          simp only [getDlogxMean, getDlogx, he]; rfl
      have k2 : collect (fun s : Sp => getDxMean s.x) specs = .error .value := by
        apply collect_err
        · intro a _
          obtain ⟨b, hb | hb⟩ := (conv_cases a.x).2
          · left; simp only [getDxMean, getDx, hb]; rfl
          · right; simp only [getDxMean, getDx, hb]; exact ⟨_, rfl⟩
        · refine ⟨s, hs, ?_⟩
          simp only [getDxMean, getDx, he]; rfl
      simp only [templateIndex, k1, k2, ite_self]
  unfold alignSpectra
  rw [ht]
  split_ifs <;> rfl

/-- C151.  With `copy` the spectra passed in are never changed, and what is returned is what would have been returned without. -/
theorem align_copy (specs : List Sp) (mode : List Char) :
    (alignSpectra specs mode true).1 = specs ∧ (alignSpectra specs mode true).2 = (alignSpectra specs mode false).2 := by
  by_cases h1 : (specs.any fun s => !s.plain) = true
  · simp only [alignSpectra, if_pos h1, and_self]
  by_cases h2 : (!(contains "super".toList mode) && !(contains "sub".toList mode)) = true
  · simp only [alignSpectra, if_neg h1, if_pos h2, and_self]
  simp only [alignSpectra, if_neg h1, if_neg h2]
  cases templateIndex mode specs with
  | error e => exact ⟨rfl, rfl⟩
  | ok i =>
    dsimp only
    generalize resampleAll (((specs[i]?).map Sp.x).getD []) specs = r
    obtain ⟨a, b⟩ := r
    cases b <;> simp

/-- C151, example: in 'super' mode the finer of two spectra is resampled to the coarser one. -/
theorem super_degrades : ∃ fine coarse : Sp, WF fine ∧ WF coarse ∧ fine.x = [0, 1, 2] ∧ coarse.x = [0, 2, 4] ∧
    ∃ out, alignSpectra [fine, coarse] "super".toList false = (out, .ok out) ∧ ∀ o ∈ out, o.x = [0, 2, 4] := by
  have hw1 : WF ⟨[0, 1, 2], [1, 2, 3], [1, 1, 1], true⟩ := ⟨by simp, rfl, rfl, by simp⟩
  have hw2 : WF ⟨[0, 2, 4], [1, 2, 3], [1, 1, 1], true⟩ := ⟨by simp; norm_num, rfl, rfl, by simp⟩
  refine ⟨_, _, hw1, hw2, rfl, rfl, ?_⟩
  obtain ⟨i, t, out, hc, ht, ho, hlen, hx, _⟩ := align_common_axis (mode := "super".toList)
    (specs := [⟨[0, 1, 2], [1, 2, 3], [1, 1, 1], true⟩, ⟨[0, 2, 4], [1, 2, 3], [1, 1, 1], true⟩]) (by simp)
    (by intro s hs; simp at hs; rcases hs with rfl | rfl; exacts [hw1, hw2])
    (by intro s hs; simp at hs; rcases hs with rfl | rfl <;> simp)
    (by intro s hs; simp at hs; rcases hs with rfl | rfl <;> rfl)
    (.inl (by simp))
    (by intro s hs t ht; simp at hs ht; rcases hs with rfl | rfl <;> rcases ht with rfl | rfl <;> rfl)
  have h1 : Coarsest "super".toList [⟨[0, 1, 2], [1, 2, 3], [1, 1, 1], true⟩, ⟨[0, 2, 4], [1, 2, 3], [1, 1, 1], true⟩] 1 := by
    have hl : contains "log".toList "super".toList = false := by decide
    refine ⟨_, rfl, ?_, ?_⟩
    · intro s hs
      simp only [List.mem_cons, List.not_mem_nil, or_false] at hs
      rcases hs with rfl | rfl <;> simp only [stepOf, hl] <;> norm_num [meanStep]
    · intro j hj s hs
      have : j = 0 := by omega
      subst this
      simp only [List.getElem?_cons_zero, Option.some.injEq] at hs
      subst hs
      simp only [stepOf, hl]
      norm_num [meanStep]
  have hi := coarsest_unique hc h1
  subst hi
  simp only [List.getElem?_cons_succ, List.getElem?_cons_zero, Option.some.injEq] at ht
  exact ⟨out, ho, fun o ho' => by rw [hx o ho', ← ht]⟩

end Verif.SpecAxis
