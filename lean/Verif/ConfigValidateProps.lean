import Verif.ConfigValidate

/-!
# What validation gives (C179)
-/

namespace Verif.ConfigValidate

variable {V C E : Type}

theorem isTrue_iff (r : R E) : r.isTrue = true ↔ r = .tt := by cases r <;> simp [R.isTrue]
theorem isFalse_iff (r : R E) : r.isFalse = true ↔ r = .ff := by cases r <;> simp [R.isFalse]

theorem verdict_tt (vd : Vdt V C E) (pr : Bool) (x : Except E V) : verdict vd pr x = .tt ↔ ∃ v, x = .ok v := by
  cases x with
  | ok v => simp [verdict]
  | error e => simp only [verdict]; split_ifs <;> simp

/-- Entries of subsections. -/
def SubEntry [DecidableEq V] (vd : Vdt V C E) (pr top : Bool) (p : Spec C) (s : Sec V) (k : String) (r : R E) : Prop :=
  (∃ t t' q, (k, t) ∈ s.sub ∧ specFor top p k = some q ∧ validate vd pr false q t = some (r, t')) ∨
  (∃ t' q, k ∈ keys p.sub ∧ k ∉ keys s.sub ∧ k ∉ keys s.scal ∧ specFor top p k = some q ∧ validate vd pr false q Sec.empty = some (r, t'))

theorem mem_allSubs (p : Spec C) (s : Sec V) (k : String) (t : Sec V) :
    (k, t) ∈ allSubs p s ↔ (k, t) ∈ s.sub ∨ (k ∈ keys p.sub ∧ k ∉ keys s.sub ∧ k ∉ keys s.scal ∧ t = Sec.empty) := by
  simp only [allSubs, List.mem_append, List.mem_map, List.mem_filter, decide_eq_true_eq, Prod.mk.injEq]
  constructor
  · rintro (h | ⟨⟨k', q⟩, ⟨h, h1, h2⟩, rfl, rfl⟩)
    · exact Or.inl h
    · exact Or.inr ⟨(mem_keys _ _).2 ⟨q, h⟩, h2, h1, rfl⟩
  · rintro (h | ⟨h, h2, h1, rfl⟩)
    · exact Or.inl h
    · obtain ⟨q, hq⟩ := (mem_keys _ _).1 h
      exact Or.inr ⟨(k, q), ⟨hq, h1, h2⟩, rfl, rfl⟩

theorem specFor_default (top : Bool) (p : Spec C) (k : String) (q : Spec C) (h : specFor top p k = some q) : ¬ (top = true ∧ k = "DEFAULT") := by
  intro hd; simp [specFor, hd] at h

theorem mem_visited (top : Bool) (p : Spec C) (s : Sec V) (k : String) (t : Sec V) :
    (k, t) ∈ visited top p s ↔ (k, t) ∈ allSubs p s ∧ ¬ (top = true ∧ k = "DEFAULT") := by
  simp only [visited, List.mem_filter, decide_eq_true_eq]

/-- What `validate` does when it returns. -/
theorem validate_some [DecidableEq V] {vd : Vdt V C E} {pr top : Bool} {p : Spec C} {s s' : Sec V} {r : R E} (h : validate vd pr top p s = some (r, s')) :
    (¬ ∃ k c, (k, c) ∈ p.scal ∧ k ∈ keys s.sub ∧ ∃ v, vd.chk c none = .ok v) ∧
    ∃ o ss ex, subSections (fun k => (specFor top p k).map (validate vd pr false)) (visited top p s) = some (o, ss, ex) ∧ r = finish pr s (acc vd pr p s) o ∧
      s' = .mk s.created (acc vd pr p s).scal (Secs.ofList ((allSubs p s).map fun q => (q.1, (look ss q.1).getD q.2)))
            ((if p.many.isNone then keys (others p s) else []) ++ ex) ∧ (∀ k r, (k, r) ∈ o ↔ SubEntry vd pr top p s k r) := by
  rw [unfold_validate] at h
  by_cases hc : ∃ k c, (k, c) ∈ p.scal ∧ k ∈ keys s.sub ∧ ∃ v, vd.chk c none = .ok v
  · rw [if_pos hc] at h; simp at h
  rw [if_neg hc] at h
  refine ⟨hc, ?_⟩
  cases hs : subSections (fun k => (specFor top p k).map (validate vd pr false)) (visited top p s) with
  | none => simp [hs] at h
  | some x =>
    obtain ⟨o, ss, ex⟩ := x
    simp only [hs, Option.some.injEq, Prod.mk.injEq] at h
    refine ⟨o, ss, ex, rfl, h.1.symm, h.2.symm, ?_⟩
    intro k r
    rw [(sub_mem _ _ _ _ _ hs).1]
    unfold SubEntry
    constructor
    · rintro ⟨t, f, t', a, b, c⟩
      obtain ⟨q, hq, rfl⟩ := Option.map_eq_some_iff.1 b
      rcases (mem_allSubs p s k t).1 ((mem_visited top p s k t).1 a).1 with a | ⟨a1, a2, a3, rfl⟩
      · exact Or.inl ⟨t, t', q, a, hq, c⟩
      · exact Or.inr ⟨t', q, a1, a2, a3, hq, c⟩
    · rintro (⟨t, t', q, a, hq, c⟩ | ⟨t', q, a1, a2, a3, hq, c⟩)
      · exact ⟨t, _, t', (mem_visited top p s k t).2 ⟨(mem_allSubs p s k t).2 (Or.inl a), specFor_default _ _ _ _ hq⟩, by rw [hq]; rfl, c⟩
      · exact ⟨Sec.empty, _, t', (mem_visited top p s k _).2 ⟨(mem_allSubs p s k _).2 (Or.inr ⟨a1, a2, a3, rfl⟩), specFor_default _ _ _ _ hq⟩, by rw [hq]; rfl, c⟩

/-- The flags after the settings and the mismatches. -/
theorem acc_rt [DecidableEq V] (vd : Vdt V C E) (pr : Bool) (p : Spec C) (s : Sec V) : (acc vd pr p s).rt = true ↔
    (∀ k c, (k, c) ∈ p.scal → ∃ v, vd.chk c (given s k) = .ok v) ∧
    (∀ c, p.many = some c → ∀ k v d, (k, v, d) ∈ s.scal → k ∉ keys p.scal → k ∉ keys p.sub → ∃ w, vd.chk c (some v) = .ok w) ∧
    (∀ k, k ∈ keys p.scal → k ∉ keys s.sub) ∧ (∀ k, k ∈ keys p.sub → k ∉ keys s.scal) := by
  have e1 : ∀ (f : String → Bool) (l : List String), (l.filter f).isEmpty = true ↔ ∀ k, k ∈ l → ¬ f k = true := by
    intro f l; rw [List.isEmpty_iff, List.filter_eq_nil_iff]
  have e2 : (specOut vd pr s.scal p.scal).all (·.2.isTrue) = true ↔ ∀ k c, (k, c) ∈ p.scal → ∃ v, vd.chk c (given s k) = .ok v := by
    simp only [specOut, List.all_map, List.all_eq_true, Function.comp, isTrue_iff, verdict_tt, arg_given, Prod.forall]
  have e3 : ∀ c, (manyOut vd pr c (others p s)).all (·.2.isTrue) = true ↔
      ∀ k v d, (k, v, d) ∈ s.scal → k ∉ keys p.scal → k ∉ keys p.sub → ∃ w, vd.chk c (some v) = .ok w := by
    intro c
    simp only [manyOut, others, List.all_map, List.all_eq_true, Function.comp, isTrue_iff, verdict_tt, Prod.forall, List.mem_filter, decide_eq_true_eq, List.mem_append, not_or]
    exact ⟨fun h k v d a b c => h k v d ⟨a, b, c⟩, fun h k v d a => h k v d a.1 a.2.1 a.2.2⟩
  unfold acc
  rw [(mismatch_out pr vd.asValue _ _).2.1, (mismatch_out pr vd.asSection _ _).2.1]
  simp only [Bool.and_eq_true, e1, decide_eq_true_eq]
  unfold acc1
  cases hm : p.many with
  | none =>
    simp only [(spec_flags vd pr s.scal p.scal _).1, Bool.true_and, e2]
    constructor
    · rintro ⟨⟨a, b⟩, c⟩; exact ⟨a, by simp, b, c⟩
    · rintro ⟨a, _, b, c⟩; exact ⟨⟨a, b⟩, c⟩
  | some c =>
    simp only [(many_flags vd pr c (others p s) _).1, (spec_flags vd pr s.scal p.scal _).1, Bool.true_and, Bool.and_eq_true, e2, e3]
    constructor
    · rintro ⟨⟨⟨a, b⟩, c⟩, d⟩; exact ⟨a, by rintro _ h; obtain rfl := Option.some.inj h; exact b, c, d⟩
    · rintro ⟨a, b, c, d⟩; exact ⟨⟨⟨a, b _ rfl⟩, c⟩, d⟩

theorem tt_iff_entries [DecidableEq V] {vd : Vdt V C E} {pr top : Bool} {p : Spec C} {s s' : Sec V} {r : R E} (h : validate vd pr top p s = some (r, s')) :
    r = .tt ↔ ∀ k e, Entry vd pr top p s k e → e = .tt := by
  obtain ⟨hc, o, ss, ex, hs, hr, _, ho⟩ := validate_some h
  have : r = .tt ↔ (acc vd pr p s).rt = true ∧ ∀ k e, SubEntry vd pr top p s k e → e = .tt := by
    rw [hr]; unfold finish
    have e : (o.all fun p => p.2.isTrue) = true ↔ ∀ k e, SubEntry vd pr top p s k e → e = .tt := by
      simp only [List.all_eq_true, isTrue_iff, Prod.forall, ho]
    split_ifs with h1 h2
    · rw [Bool.and_eq_true, e] at h1; simp [h1.1]; exact h1.2
    · rw [Bool.and_eq_true, e] at h1; simp only [reduceCtorEq, false_iff]; exact h1
    · rw [Bool.and_eq_true, e] at h1; simp only [reduceCtorEq, false_iff]; exact h1
  rw [this, acc_rt]
  constructor
  · rintro ⟨⟨a, b, c, d⟩, f⟩ k e he
    cases he with
    | setting c h1 h2 => exact (verdict_tt _ _ _).2 (a k c h1)
    | other c v d h1 h2 h3 h4 => exact (verdict_tt _ _ _).2 (b c h1 k v d h2 h3 h4)
    | asSection h1 h2 => exact absurd h2 (c k h1)
    | asValue h1 h2 => exact absurd h2 (d k h1)
    | sub t t' q r h1 h2 h3 => exact f k e (Or.inl ⟨t, t', q, h1, h2, h3⟩)
    | created t' q r h1 h2 h3 h4 h5 => exact f k e (Or.inr ⟨t', q, h1, h2, h3, h4, h5⟩)
  · intro f
    have c : ∀ k, k ∈ keys p.scal → k ∉ keys s.sub := by
      intro k h1 h2
      have := f k _ (.asSection k h1 h2)
      cases pr <;> simp at this
    have d : ∀ k, k ∈ keys p.sub → k ∉ keys s.scal := by
      intro k h1 h2
      have := f k _ (.asValue k h1 h2)
      cases pr <;> simp at this
    refine ⟨⟨?_, ?_, c, d⟩, ?_⟩
    · intro k c' hk
      exact (verdict_tt vd pr _).1 (f k _ (.setting k c' hk (c k ((mem_keys _ _).2 ⟨_, hk⟩))))
    · intro c' hm k v d hk h1 h2
      exact (verdict_tt vd pr _).1 (f k _ (.other k c' v d hm hk h1 h2))
    · rintro k e (⟨t, t', q, h1, h2, h3⟩ | ⟨t', q, h1, h2, h3, h4, h5⟩)
      · exact f k e (.sub k t t' q e h1 h2 h3)
      · exact f k e (.created k t' q e h1 h2 h3 h4 h5)

/-! ## Recursion over the spec -/

theorem size_sub : ∀ (l : Specs C) (k : String) (q : Spec C), look l.toList k = some q → sizeOf q < sizeOf l
  | .nil, k, q, h => by simp [Specs.toList, look] at h
  | .cons k' s r, k, q, h => by
    rw [Specs.toList, look_cons] at h
    split_ifs at h
    · obtain rfl := Option.some.inj h; simp; omega
    · have := size_sub r k q h; simp; omega

theorem size_specFor (top : Bool) (p : Spec C) (k : String) (q : Spec C) (h : specFor top p k = some q) : sizeOf q < sizeOf p := by
  have hd := h
  obtain ⟨scal, many, secs, ms⟩ := p
  unfold specFor at h
  by_cases h1 : top = true ∧ k = "DEFAULT"
  · simp [h1] at h
  rw [if_neg h1] at h
  simp only [Spec.sub] at h
  cases hl : look secs.toList k with
  | some q' =>
    rw [hl] at h
    obtain rfl := Option.some.inj h
    have := size_sub secs k q' hl
    simp; omega
  | none =>
    rw [hl] at h
    dsimp only at h
    by_cases h2 : k ∈ keys (Spec.mk scal many secs ms).scal
    · rw [if_pos h2] at h; simp at h
    rw [if_neg h2] at h
    cases ms with
    | none => simp [Spec.manySub, OSpec.toOption] at h
    | some m =>
      simp only [Spec.manySub, OSpec.toOption, Option.some.injEq] at h
      subst h; simp; omega

theorem not_clobbers_empty (vd : Vdt V C E) (top : Bool) (p : Spec C) : ¬ Clobbers vd top p Sec.empty := by
  intro h
  have e : (Sec.empty : Sec V).sub = [] := rfl
  cases h with
  | here _ _ _ k c v h1 h2 => rw [e] at h2; simp [keys] at h2
  | sub _ _ _ k t q h1 => rw [e] at h1; simp at h1

/-- C179.  `validate` raises AttributeError exactly if somewhere a setting of the configspec has a default and the configuration has a section of its name. -/
theorem raises_iff [DecidableEq V] (vd : Vdt V C E) (pr top : Bool) (p : Spec C) (s : Sec V) : validate vd pr top p s = none ↔ Clobbers vd top p s := by
  induction hn : sizeOf p using Nat.strongRecOn generalizing top p s with
  | _ n ih =>
    subst hn
    rw [unfold_validate]
    constructor
    · intro h
      by_cases hc : ∃ k c, (k, c) ∈ p.scal ∧ k ∈ keys s.sub ∧ ∃ v, vd.chk c none = .ok v
      · obtain ⟨k, c, h1, h2, v, h3⟩ := hc
        exact .here top p s k c v h1 h2 h3
      · rw [if_neg hc] at h
        cases hs : subSections (fun k => (specFor top p k).map (validate vd pr false)) (visited top p s) with
        | some x => simp [hs] at h
        | none =>
          obtain ⟨k, t, f, a, b, c⟩ := (sub_none _ _).1 hs
          obtain ⟨q, hq, rfl⟩ := Option.map_eq_some_iff.1 b
          have hcl := (ih _ (size_specFor top p k q hq) false q t rfl).1 c
          rcases (mem_allSubs p s k t).1 ((mem_visited top p s k t).1 a).1 with a | ⟨a1, a2, a3, rfl⟩
          · exact .sub top p s k t q a hq hcl
          · exact absurd hcl (not_clobbers_empty _ _ _)
    · intro h
      cases h with
      | here _ _ _ k c v h1 h2 h3 => rw [if_pos ⟨k, c, h1, h2, v, h3⟩]
      | sub _ _ _ k t q h1 h2 h3 =>
        by_cases hc : ∃ k c, (k, c) ∈ p.scal ∧ k ∈ keys s.sub ∧ ∃ v, vd.chk c none = .ok v
        · rw [if_pos hc]
        · rw [if_neg hc]
          have : subSections (fun k => (specFor top p k).map (validate vd pr false)) (visited top p s) = none :=
            (sub_none _ _).2 ⟨k, t, _, (mem_visited top p s k t).2 ⟨(mem_allSubs p s k t).2 (Or.inl h1), specFor_default _ _ _ _ h2⟩, by rw [h2]; rfl,
              (ih _ (size_specFor top p k q h2) false q t rfl).2 h3⟩
          rw [this]

/-- C179.  `validate` returns True exactly if the configuration and the configspec fit. -/
theorem valid_iff [DecidableEq V] (vd : Vdt V C E) (pr top : Bool) (p : Spec C) (s : Sec V) : (∃ s', validate vd pr top p s = some (.tt, s')) ↔ Fits vd top p s := by
  induction hn : sizeOf p using Nat.strongRecOn generalizing top p s with
  | _ n ih =>
    subst hn
    constructor
    · rintro ⟨s', h⟩
      have hall := (tt_iff_entries h).1 rfl
      have c : ∀ k, k ∈ keys p.scal → k ∉ keys s.sub := by
        intro k h1 h2
        have := hall k _ (.asSection k h1 h2)
        cases pr <;> simp at this
      have d : ∀ k, k ∈ keys p.sub → k ∉ keys s.scal := by
        intro k h1 h2
        have := hall k _ (.asValue k h1 h2)
        cases pr <;> simp at this
      obtain ⟨_, o, ss, ex, hs, _⟩ := validate_some h
      have hdone := (sub_mem _ _ _ _ _ hs).2.2.2.2.1
      refine .mk top p s ?_ ?_ d ?_ ?_
      · intro k c' hk
        have h1 := c k ((mem_keys _ _).2 ⟨_, hk⟩)
        exact ⟨h1, (verdict_tt vd pr _).1 (hall k _ (.setting k c' hk h1))⟩
      · intro c' hm k v d hk h1 h2
        exact (verdict_tt vd pr _).1 (hall k _ (.other k c' v d hm hk h1 h2))
      · intro k t q ht hq
        obtain ⟨r, t', hr⟩ := hdone k t (validate vd pr false q) ((mem_visited top p s k t).2 ⟨(mem_allSubs p s k t).2 (Or.inl ht), specFor_default _ _ _ _ hq⟩) (by rw [hq]; rfl)
        have := hall k r (.sub k t t' q r ht hq hr)
        subst this
        exact (ih _ (size_specFor top p k q hq) false q t rfl).1 ⟨t', hr⟩
      · intro k q hk hk' hq
        obtain ⟨r, t', hr⟩ := hdone k Sec.empty (validate vd pr false q)
          ((mem_visited top p s k _).2 ⟨(mem_allSubs p s k _).2 (Or.inr ⟨hk, hk', d k hk, rfl⟩), specFor_default _ _ _ _ hq⟩) (by rw [hq]; rfl)
        have := hall k r (.created k t' q r hk hk' (d k hk) hq hr)
        subst this
        exact (ih _ (size_specFor top p k q hq) false q _ rfl).1 ⟨t', hr⟩
    · intro hf
      have hnc : ¬ Clobbers vd top p s := by
        intro hc
        have : ∀ top p s, Clobbers vd top p s → Fits vd top p s → False := by
          intro top p s hc
          induction hc with
          | here top p s k c v h1 h2 h3 => intro hf; cases hf with | mk _ _ _ a b c d e => exact (a k _ h1).1 h2
          | sub top p s k t q h1 h2 _ ih => intro hf; cases hf with | mk _ _ _ a b c d e => exact ih (d k t q h1 h2)
        exact this top p s hc hf
      cases hv : validate vd pr top p s with
      | none => exact absurd ((raises_iff vd pr top p s).1 hv) hnc
      | some x =>
        obtain ⟨r, s'⟩ := x
        have hr : r = .tt := by
          rw [tt_iff_entries hv]
          cases hf with
          | mk _ _ _ a b c d e =>
          intro k r he
          cases he with
          | setting c' h1 h2 => exact (verdict_tt _ _ _).2 (a k c' h1).2
          | other c' v d h1 h2 h3 h4 => exact (verdict_tt _ _ _).2 (b c' h1 k v d h2 h3 h4)
          | asSection h1 h2 =>
            obtain ⟨c', hc'⟩ := (mem_keys _ _).1 h1
            exact absurd h2 (a k c' hc').1
          | asValue h1 h2 => exact absurd h2 (c k h1)
          | sub t t' q r h1 h2 h3 =>
            obtain ⟨t'', h4⟩ := (ih _ (size_specFor top p k q h2) false q t rfl).2 (d k t q h1 h2)
            rw [h3] at h4
            simp only [Option.some.injEq, Prod.mk.injEq] at h4
            exact h4.1
          | created t' q r h1 h2 h3 h4 h5 =>
            obtain ⟨t'', h6⟩ := (ih _ (size_specFor top p k q h4) false q _ rfl).2 (e k q h1 h2 h4)
            rw [h5] at h6
            simp only [Option.some.injEq, Prod.mk.injEq] at h6
            exact h6.1
        subst hr
        exact ⟨s', rfl⟩

end Verif.ConfigValidate
