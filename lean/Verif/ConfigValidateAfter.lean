import Verif.ConfigValidateProps

/-!
# Results, settings and subsections after validation (C179)
-/

namespace Verif.ConfigValidate

variable {V C E : Type}

theorem specFor_known {top : Bool} {p : Spec C} {s : Sec V} {k : String} {q : Spec C} (hn : Names p s) (h : specFor top p k = some q) : k ∉ keys p.scal := by
  intro hk
  have h2 : look p.sub k = none := (look_none _ _).2 (hn.n3 k hk)
  unfold specFor at h
  rw [if_neg (specFor_default top p k q (by unfold specFor; exact h)), h2] at h
  simp [hk] at h

theorem mem_keys_filter {α : Type} (l : List (String × α)) (f : String × α → Bool) (k : String) (h : k ∈ keys (l.filter f)) : k ∈ keys l := by
  obtain ⟨v, hv⟩ := (mem_keys _ _).1 h
  exact (mem_keys _ _).2 ⟨v, List.mem_of_mem_filter hv⟩

theorem nodup_keys_filter {α : Type} (l : List (String × α)) (f : String × α → Bool) (h : (keys l).Nodup) : (keys (l.filter f)).Nodup :=
  List.Nodup.sublist (List.Sublist.map _ List.filter_sublist) h

theorem keys_specOut (vd : Vdt V C E) (pr : Bool) (orig : List (String × V × Bool)) (l : List (String × C)) : keys (specOut vd pr orig l) = keys l := by
  simp [keys, specOut]

theorem keys_manyOut (vd : Vdt V C E) (pr : Bool) (c : C) (l : List (String × V × Bool)) : keys (manyOut vd pr c l) = keys l := by
  simp [keys, manyOut]

theorem keys_others (p : Spec C) (s : Sec V) (k : String) : k ∈ keys (others p s) ↔ k ∈ keys s.scal ∧ k ∉ keys p.scal ∧ k ∉ keys p.sub := by
  rw [mem_keys, mem_keys]
  simp only [others, List.mem_filter, decide_eq_true_eq, List.mem_append, not_or]
  exact ⟨fun ⟨v, a, b⟩ => ⟨⟨v, a⟩, b⟩, fun ⟨⟨v, a⟩, b⟩ => ⟨v, a, b⟩⟩

/-- The dictionary after the settings. -/
theorem acc1_out [DecidableEq V] (vd : Vdt V C E) (pr : Bool) (p : Spec C) (s : Sec V) (hn : Names p s) :
    (acc1 vd pr p s).out = specOut vd pr s.scal p.scal ++ (match p.many with
      | none => []
      | some c => manyOut vd pr c (others p s)) ∧ (keys (acc1 vd pr p s).out).Nodup := by
  have h1 := (specScalars_out vd pr s.scal p.scal ⟨[], true, true, s.scal⟩ hn.n1 (by simp [keys])).1
  rw [List.nil_append] at h1
  unfold acc1
  cases hm : p.many with
  | none => simp only [h1, List.append_nil, keys_specOut]; exact ⟨trivial, hn.n1⟩
  | some c =>
    have hno := nodup_keys_filter s.scal (fun q => decide (q.1 ∉ keys p.scal ++ keys p.sub)) hn.n4
    have h2 := (manyScalars_out vd pr c (others p s) (specScalars vd pr s.scal p.scal ⟨[], true, true, s.scal⟩) hno (by
      intro k hk
      rw [h1, keys_specOut]
      exact ((keys_others p s k).1 hk).2.1)).1
    simp only [h2, h1, keys_append, keys_specOut, keys_manyOut, true_and]
    refine List.nodup_append.2 ⟨hn.n1, hno, ?_⟩
    intro a ha b hb
    rintro rfl
    exact ((keys_others p s a).1 hb).2.1 ha

theorem mem_iff_look {α : Type} (l : List (String × α)) (k : String) (v : α) (h : (keys l).Nodup) : look l k = some v ↔ (k, v) ∈ l :=
  ⟨look_mem l k v, look_of_mem l k v h⟩

theorem acc_out [DecidableEq V] (vd : Vdt V C E) (pr top : Bool) (p : Spec C) (s : Sec V) (hn : Names p s) :
    (∀ k e, look (acc vd pr p s).out k = some e → Entry vd pr top p s k e) ∧
    (∀ k e, Entry vd pr top p s k e → look (acc vd pr p s).out k = some e ∨ SubEntry vd pr top p s k e) ∧
    (∀ k e, SubEntry vd pr top p s k e → look (acc vd pr p s).out k = none) := by
  have hl : ∀ k e, look (acc vd pr p s).out k = some e ↔ ((k ∈ keys p.sub ∧ k ∈ keys s.scal) ∧ e = mm pr vd.asValue k) ∨ (¬ (k ∈ keys p.sub ∧ k ∈ keys s.scal) ∧
      (((k ∈ keys p.scal ∧ k ∈ keys s.sub) ∧ e = mm pr vd.asSection k) ∨ (¬ (k ∈ keys p.scal ∧ k ∈ keys s.sub) ∧
        ((∃ c, (k, c) ∈ p.scal ∧ e = verdict vd pr (vd.chk c (given s k))) ∨
         (∃ c v d, p.many = some c ∧ (k, v, d) ∈ s.scal ∧ k ∉ keys p.scal ∧ k ∉ keys p.sub ∧ e = verdict vd pr (vd.chk c (some v))))))) := by
    intro k e
    obtain ⟨ho, hno⟩ := acc1_out vd pr p s hn
    have hmem : look (acc1 vd pr p s).out k = some e ↔ ((∃ c, (k, c) ∈ p.scal ∧ e = verdict vd pr (vd.chk c (given s k))) ∨
         (∃ c v d, p.many = some c ∧ (k, v, d) ∈ s.scal ∧ k ∉ keys p.scal ∧ k ∉ keys p.sub ∧ e = verdict vd pr (vd.chk c (some v)))) := by
      rw [mem_iff_look _ _ _ hno, ho, List.mem_append]
      apply or_congr
      · simp only [specOut, List.mem_map, Prod.mk.injEq, Prod.exists, arg_given]
        constructor
        · rintro ⟨k', c, a, rfl, rfl⟩; exact ⟨c, a, rfl⟩
        · rintro ⟨c, a, rfl⟩; exact ⟨k, c, a, rfl, rfl⟩
      · cases hm : p.many with
        | none => simp
        | some c =>
          simp only [manyOut, others, List.mem_map, Prod.mk.injEq, Prod.exists, List.mem_filter, decide_eq_true_eq, List.mem_append, not_or, Option.some.injEq]
          constructor
          · rintro ⟨k', v, d, ⟨a, b, b'⟩, rfl, rfl⟩; exact ⟨c, v, d, rfl, a, b, b', rfl⟩
          · rintro ⟨_, v, d, rfl, a, b, b', rfl⟩; exact ⟨k, v, d, ⟨a, b, b'⟩, rfl, rfl⟩
    unfold acc
    rw [(mismatch_out pr vd.asValue _ _).1, (mismatch_out pr vd.asSection _ _).1, hmem]
    simp only [List.mem_filter, decide_eq_true_eq]
  refine ⟨?_, ?_, ?_⟩
  · intro k e h
    rcases (hl k e).1 h with ⟨⟨a, b⟩, rfl⟩ | ⟨a, ⟨⟨b, c⟩, rfl⟩ | ⟨b, ⟨c, d, rfl⟩ | ⟨c, v, d, h1, h2, h3, h4, rfl⟩⟩⟩
    · exact .asValue k a b
    · exact .asSection k b c
    · have hk : k ∈ keys p.scal := (mem_keys _ _).2 ⟨_, d⟩
      exact .setting k c d (fun h => b ⟨hk, h⟩)
    · exact .other k c v d h1 h2 h3 h4
  · intro k e he
    cases he with
    | setting c h1 h2 =>
      have hk : k ∈ keys p.scal := (mem_keys _ _).2 ⟨_, h1⟩
      exact Or.inl ((hl _ _).2 (Or.inr ⟨fun h => hn.n3 k hk h.1, Or.inr ⟨fun h => h2 h.2, Or.inl ⟨c, h1, rfl⟩⟩⟩))
    | other c v d h1 h2 h3 h4 =>
      exact Or.inl ((hl _ _).2 (Or.inr ⟨fun h => h4 h.1, Or.inr ⟨fun h => h3 h.1, Or.inr ⟨c, v, d, h1, h2, h3, h4, rfl⟩⟩⟩))
    | asSection h1 h2 => exact Or.inl ((hl _ _).2 (Or.inr ⟨fun h => hn.n3 k h1 h.1, Or.inl ⟨⟨h1, h2⟩, rfl⟩⟩))
    | asValue h1 h2 => exact Or.inl ((hl _ _).2 (Or.inl ⟨⟨h1, h2⟩, rfl⟩))
    | sub t t' q r h1 h2 h3 => exact Or.inr (Or.inl ⟨t, t', q, h1, h2, h3⟩)
    | created t' q r h1 h2 h3 h4 h5 => exact Or.inr (Or.inr ⟨t', q, h1, h2, h3, h4, h5⟩)
  · intro k e he
    have hk : k ∉ keys p.scal ∧ k ∉ keys s.scal := by
      rcases he with ⟨t, t', q, h4, h5, _⟩ | ⟨t', q, h4, h5, h6, h7, _⟩
      · exact ⟨specFor_known hn h5, fun h => hn.n6 k h ((mem_keys _ _).2 ⟨_, h4⟩)⟩
      · exact ⟨specFor_known hn h7, h6⟩
    cases hx : look (acc vd pr p s).out k with
    | none => rfl
    | some e =>
      rcases (hl k e).1 hx with ⟨⟨a, b⟩, -⟩ | ⟨a, ⟨⟨b, c⟩, -⟩ | ⟨b, ⟨c, d, -⟩ | ⟨c, v, d, -, h4, -⟩⟩⟩
      · exact absurd b hk.2
      · exact absurd b hk.1
      · exact absurd ((mem_keys _ _).2 ⟨_, d⟩) hk.1
      · exact absurd ((mem_keys _ _).2 ⟨_, h4⟩) hk.2

theorem nodup_allSubs (p : Spec C) (s : Sec V) (hn : Names p s) : (keys (allSubs p s)).Nodup := by
  unfold allSubs
  rw [keys_append]
  refine List.nodup_append.2 ⟨hn.n5, ?_, ?_⟩
  · have := nodup_keys_filter p.sub (fun q => decide (q.1 ∉ keys s.scal ∧ q.1 ∉ keys s.sub)) hn.n2
    simp only [keys, List.map_map] at this ⊢
    exact this
  · intro a ha b hb
    rintro rfl
    obtain ⟨t, ht⟩ := (mem_keys _ _).1 hb
    simp only [List.mem_map, List.mem_filter, decide_eq_true_eq, Prod.mk.injEq] at ht
    obtain ⟨q, ⟨_, _, h2⟩, rfl, _⟩ := ht
    exact h2 ha

theorem sub_entry [DecidableEq V] {vd : Vdt V C E} {pr top : Bool} {p : Spec C} {s : Sec V} {k : String} {e : R E} (h : SubEntry vd pr top p s k e) : Entry vd pr top p s k e := by
  rcases h with ⟨t, t', q, h1, h2, h3⟩ | ⟨t', q, h1, h2, h3, h4, h5⟩
  · exact .sub k t t' q e h1 h2 h3
  · exact .created k t' q e h1 h2 h3 h4 h5

theorem out_exact [DecidableEq V] {vd : Vdt V C E} {pr top : Bool} {p : Spec C} {s : Sec V} (hn : Names p s) {o : List (String × R E)} (hno : (keys o).Nodup)
    (ho : ∀ k r, (k, r) ∈ o ↔ SubEntry vd pr top p s k r) :
    (∀ k e, look ((acc vd pr p s).out ++ o) k = some e ↔ Entry vd pr top p s k e) ∧ (∀ k e, (k, e) ∈ (acc vd pr p s).out ++ o ↔ Entry vd pr top p s k e) := by
  obtain ⟨h1, h2, h3⟩ := acc_out vd pr top p s hn
  have hnd : (keys (acc vd pr p s).out).Nodup := by
    unfold acc
    exact (mismatch_out _ _ _ _).2.2.2.2 ((mismatch_out _ _ _ _).2.2.2.2 (acc1_out vd pr p s hn).2)
  have key : ∀ k e, look ((acc vd pr p s).out ++ o) k = some e ↔ Entry vd pr top p s k e := by
    intro k e
    rw [look_append]
    constructor
    · intro h
      cases ha : look (acc vd pr p s).out k with
      | some e' =>
        rw [ha, Option.some_or] at h
        obtain rfl := Option.some.inj h
        exact h1 k e' ha
      | none =>
        rw [ha, Option.none_or] at h
        exact sub_entry ((ho k e).1 (look_mem _ _ _ h))
    · intro h
      rcases h2 k e h with h | h
      · rw [h, Option.some_or]
      · rw [h3 k e h, Option.none_or]; exact look_of_mem _ _ _ hno ((ho k e).2 h)
  refine ⟨key, fun k e => ?_⟩
  rw [← key]
  refine (mem_iff_look _ _ _ ?_).symm
  rw [keys_append]
  refine List.nodup_append.2 ⟨hnd, hno, ?_⟩
  intro a ha b hb
  rintro rfl
  obtain ⟨e, he⟩ := (mem_keys _ _).1 hb
  exact (look_none _ _).1 (h3 a e ((ho a e).1 he)) ha

/-- C179.  The result.  True: every entry is True.  False: there is something to check and nothing *directly* in the section passes (with `preserve_errors`: every entry is
False, and the section was missing).  Otherwise the dictionary of the entries. -/
theorem results_exact [DecidableEq V] {vd : Vdt V C E} {pr top : Bool} {p : Spec C} {s s' : Sec V} {r : R E} (hn : Names p s)
    (h : validate vd pr top p s = some (r, s')) :
    (r = .tt ↔ ∀ k e, Entry vd pr top p s k e → e = .tt) ∧
    (r = .ff ↔ (∃ k e, Entry vd pr top p s k e) ∧ (∀ k e, Entry vd pr top p s k e → if pr = true then e = .ff else e ≠ .tt) ∧ (pr = true → s.created = true)) ∧
    (∀ m, r = .node m → ∀ k e, look m.toList k = some e ↔ Entry vd pr top p s k e) := by
  have htt := tt_iff_entries h
  obtain ⟨hc, o, ss, ex, hs, hr, _, ho⟩ := validate_some h
  have hno : (keys o).Nodup := (sub_mem _ _ _ _ _ hs).2.2.2.2.2 (nodup_keys_filter _ _ (nodup_allSubs p s hn))
  obtain ⟨hl, hmem⟩ := out_exact hn hno ho
  refine ⟨htt, ?_, ?_⟩
  · have hrf : (acc vd pr p s).rf = true ↔ (∀ k c, (k, c) ∈ p.scal → (verdict vd pr (vd.chk c (given s k))).isFalse = true) ∧
        (∀ c, p.many = some c → ∀ k v d, (k, v, d) ∈ s.scal → k ∉ keys p.scal → k ∉ keys p.sub → (verdict vd pr (vd.chk c (some v))).isFalse = true) ∧
        (pr = true → (∀ k, k ∈ keys p.scal → k ∉ keys s.sub) ∧ (∀ k, k ∈ keys p.sub → k ∉ keys s.scal)) := by
      have e1 : ∀ (f : String → Bool) (l : List String), (l.filter f).isEmpty = true ↔ ∀ k, k ∈ l → ¬ f k = true := by
        intro f l; rw [List.isEmpty_iff, List.filter_eq_nil_iff]
      have e2 : (specOut vd pr s.scal p.scal).all (·.2.isFalse) = true ↔ ∀ k c, (k, c) ∈ p.scal → (verdict vd pr (vd.chk c (given s k))).isFalse = true := by
        simp only [specOut, List.all_map, List.all_eq_true, Function.comp, arg_given, Prod.forall]
      have e3 : ∀ c, (manyOut vd pr c (others p s)).all (·.2.isFalse) = true ↔
          ∀ k v d, (k, v, d) ∈ s.scal → k ∉ keys p.scal → k ∉ keys p.sub → (verdict vd pr (vd.chk c (some v))).isFalse = true := by
        intro c
        simp only [manyOut, others, List.all_map, List.all_eq_true, Function.comp, Prod.forall, List.mem_filter, decide_eq_true_eq, List.mem_append, not_or]
        exact ⟨fun h k v d a b c => h k v d ⟨a, b, c⟩, fun h k v d a => h k v d a.1 a.2.1 a.2.2⟩
      unfold acc
      rw [(mismatch_out pr vd.asValue _ _).2.2.1, (mismatch_out pr vd.asSection _ _).2.2.1]
      simp only [Bool.and_eq_true, Bool.or_eq_true, Bool.not_eq_true', e1, decide_eq_true_eq]
      have hpr : (pr = true → (∀ k, k ∈ keys p.scal → k ∉ keys s.sub) ∧ (∀ k, k ∈ keys p.sub → k ∉ keys s.scal)) ↔
          ((∀ k, k ∈ keys p.scal → k ∉ keys s.sub) ∨ pr = false) ∧ ((∀ k, k ∈ keys p.sub → k ∉ keys s.scal) ∨ pr = false) := by
        cases pr <;> simp
      rw [hpr]
      unfold acc1
      cases hm : p.many with
      | none =>
        simp only [(spec_flags vd pr s.scal p.scal _).2, Bool.true_and, e2]
        constructor
        · rintro ⟨⟨a, b⟩, c⟩; exact ⟨a, by simp, b, c⟩
        · rintro ⟨a, _, b, c⟩; exact ⟨⟨a, b⟩, c⟩
      | some c =>
        simp only [(many_flags vd pr c (others p s) _).2, (spec_flags vd pr s.scal p.scal _).2, Bool.true_and, Bool.and_eq_true, e2, e3]
        constructor
        · rintro ⟨⟨⟨a, b⟩, c⟩, d⟩; exact ⟨a, by rintro _ h; obtain rfl := Option.some.inj h; exact b, c, d⟩
        · rintro ⟨a, b, c, d⟩; exact ⟨⟨⟨a, b _ rfl⟩, c⟩, d⟩
    have hall : ((acc vd pr p s).out ++ o).all (fun p => p.2.isFalse) = true ↔ ∀ k e, Entry vd pr top p s k e → e = .ff := by
      simp only [List.all_eq_true, isFalse_iff, Prod.forall, hmem]
    have hot : (o.all fun p => !p.2.isTrue) = true ↔ ∀ k e, SubEntry vd pr top p s k e → e ≠ .tt := by
      simp only [List.all_eq_true, Bool.not_eq_true', Prod.forall, ho]
      constructor
      · intro h k e he h'; have := h k e he; rw [(isTrue_iff e).2 h'] at this; simp at this
      · intro h k e he; have := h k e he; rw [Ne, ← isTrue_iff] at this; simpa using this
    have hff : r = .ff ↔ r ≠ .tt ∧ ((acc vd pr p s).rf = true ∧ (∀ k e, SubEntry vd pr top p s k e → e ≠ .tt) ∧ (pr = true → s.created = true) ∧
        (pr = true → ∀ k e, Entry vd pr top p s k e → e = .ff)) := by
      have e : ((acc vd pr p s).rf && o.all (fun p => !p.2.isTrue) && (!pr || s.created) && (!pr || ((acc vd pr p s).out ++ o).all (fun p => p.2.isFalse))) = true ↔
          ((acc vd pr p s).rf = true ∧ (∀ k e, SubEntry vd pr top p s k e → e ≠ .tt) ∧ (pr = true → s.created = true) ∧
        (pr = true → ∀ k e, Entry vd pr top p s k e → e = .ff)) := by
        rw [Bool.and_eq_true, Bool.and_eq_true, Bool.and_eq_true, hot, Bool.or_eq_true, Bool.or_eq_true, hall, and_assoc, and_assoc]
        cases pr <;> simp
      rw [hr]; unfold finish
      split_ifs with h1 h2
      · simp
      · exact ⟨fun _ => ⟨by simp, e.1 h2⟩, fun _ => rfl⟩
      · exact ⟨fun hh => by simp at hh, fun hh => absurd (e.2 hh.2) h2⟩
    rw [hff, Ne, htt, hrf]
    constructor
    · rintro ⟨h1, ⟨a, b, c⟩, d, e, f⟩
      simp only [not_forall] at h1
      obtain ⟨k, x, hx, _⟩ := h1
      refine ⟨⟨k, x, hx⟩, ?_, e⟩
      intro k x hx
      cases pr with
      | true => exact f rfl k x hx
      | false =>
        simp only [Bool.false_eq_true, if_false]
        cases hx with
        | setting c' h1 h2 => intro h'; have := a k c' h1; rw [h'] at this; simp [R.isFalse] at this
        | other c' v d h1 h2 h3 h4 => intro h'; have := b c' h1 k v d h2 h3 h4; rw [h'] at this; simp [R.isFalse] at this
        | asSection h1 h2 => simp
        | asValue h1 h2 => simp
        | sub t t' q r h1 h2 h3 => exact d k _ (Or.inl ⟨t, t', q, h1, h2, h3⟩)
        | created t' q r h1 h2 h3 h4 h5 => exact d k _ (Or.inr ⟨t', q, h1, h2, h3, h4, h5⟩)
    · rintro ⟨⟨k, x, hx⟩, f, e⟩
      have hne : ∀ k x, Entry vd pr top p s k x → x ≠ .tt := by
        intro k x hx
        have := f k x hx
        cases pr with
        | true => simp only [if_true] at this; rw [this]; simp
        | false => simpa using this
      have hpr1 : pr = true → (∀ k, k ∈ keys p.scal → k ∉ keys s.sub) ∧ (∀ k, k ∈ keys p.sub → k ∉ keys s.scal) := by
        intro hp
        refine ⟨fun k h1 h2 => ?_, fun k h1 h2 => ?_⟩
        · have := f k _ (.asSection k h1 h2); simp [hp] at this
        · have := f k _ (.asValue k h1 h2); simp [hp] at this
      have hfalse : ∀ k e, Entry vd pr top p s k e → (∃ x, e = verdict vd pr x) → e.isFalse = true := by
        rintro k _ he ⟨x, rfl⟩
        have h1 := f k _ he
        have h2 := hne k _ he
        cases pr with
        | true => rw [isFalse_iff]; simpa using h1
        | false =>
          cases x with
          | ok v => simp [verdict] at h2
          | error e => simp [verdict, R.isFalse]
      refine ⟨fun hall => hne k x hx (hall k x hx), ⟨?_, ?_, hpr1⟩, fun k e he => hne k e (sub_entry he), e, ?_⟩
      · intro k c hk
        by_cases hks : k ∈ keys s.sub
        · have hg : given s k = none := by
            have : look s.scal k = none := (look_none _ _).2 (fun hh => hn.n6 k hh hks)
            simp [given, this]
          rw [hg]
          cases hv : vd.chk c none with
          | ok v => exact absurd ⟨k, c, hk, hks, v, hv⟩ hc
          | error e =>
            cases pr with
            | true => exact absurd hks ((hpr1 rfl).1 k ((mem_keys _ _).2 ⟨_, hk⟩))
            | false => simp [verdict, R.isFalse]
        · exact hfalse k _ (.setting k c hk hks) ⟨_, rfl⟩
      · intro c hm k v d h1 h2 h3
        exact hfalse k _ (.other k c v d hm h1 h2 h3) ⟨_, rfl⟩
      · rintro rfl k e he
        simpa using f k e he
  · intro m hm k e
    rw [hr] at hm
    unfold finish at hm
    split_ifs at hm
    simp only [R.node.injEq] at hm
    rw [← hm, ofList_toList_rs, hl]

/-! ## The section afterwards -/

/-- A setting after its check. -/
def after (vd : Vdt V C E) (c : C) (o : Option (V × Bool)) : Option (V × Bool) :=
  match vd.chk c (arg o) with
  | .error _ => o
  | .ok v => some (v, isMissing o)

theorem entry_scal [DecidableEq V] (vd : Vdt V C E) (pr : Bool) (a : Acc V E) (k : String) (c : C) (o : Option (V × Bool)) (h : look a.scal k = o) (k' : String) :
    look (entry vd pr a k c o (isMissing o)).scal k' = if k' = k then after vd c o else look a.scal k' := by
  unfold entry
  have e : vd.chk c (if isMissing o then none else o.map (·.1)) = vd.chk c (arg o) := rfl
  rw [e]
  unfold after
  cases hr : vd.chk c (arg o) with
  | error x =>
    dsimp only
    by_cases hk : k' = k
    · subst hk; rw [if_pos rfl, ← h]; split_ifs <;> rfl
    · rw [if_neg hk]; split_ifs <;> rfl
  | ok v =>
    dsimp only
    cases o with
    | none =>
      simp only [look_append, look_cons]
      by_cases hk : k' = k
      · subst hk; rw [h]; simp [isMissing]
      · simp [Ne.symm hk, hk, look]
    | some x =>
      obtain ⟨w, d⟩ := x
      dsimp only
      by_cases hq : v = w ∧ isMissing (some (w, d)) = false
      · rw [if_pos hq]
        by_cases hk : k' = k
        · subst hk; rw [if_pos rfl, h, hq.1]; simp only [isMissing] at hq ⊢
        · rw [if_neg hk]
      · rw [if_neg hq, look_put]

theorem entry_scal_many [DecidableEq V] (vd : Vdt V C E) (pr : Bool) (a : Acc V E) (k : String) (c : C) (v : V) (d : Bool) (h : look a.scal k = some (v, d)) (k' : String) :
    look (entry vd pr a k c (some (v, d)) false).scal k' = if k' = k then (match vd.chk c (some v) with
      | .error _ => some (v, d)
      | .ok w => some (w, decide (w = v) && d)) else look a.scal k' := by
  unfold entry
  simp only [Bool.false_eq_true, if_false, Option.map_some]
  cases hr : vd.chk c (some v) with
  | error x =>
    dsimp only
    by_cases hk : k' = k
    · subst hk; rw [if_pos rfl, ← h]; split_ifs <;> rfl
    · rw [if_neg hk]; split_ifs <;> rfl
  | ok w =>
    dsimp only
    by_cases hq : w = v
    · rw [if_pos ⟨hq, trivial⟩]
      by_cases hk : k' = k
      · subst hk; rw [if_pos rfl, h, hq]; simp
      · rw [if_neg hk]
    · rw [if_neg (fun hh => hq hh.1), look_put]
      simp [hq]

theorem specScalars_scal [DecidableEq V] (vd : Vdt V C E) (pr : Bool) (orig : List (String × V × Bool)) : ∀ (l : List (String × C)) (a : Acc V E), (keys l).Nodup →
    (∀ k, k ∈ keys l → look a.scal k = look orig k) →
    (∀ k c, (k, c) ∈ l → look (specScalars vd pr orig l a).scal k = after vd c (look orig k)) ∧ (∀ k, k ∉ keys l → look (specScalars vd pr orig l a).scal k = look a.scal k)
  | [], a, _, _ => by simp [specScalars]
  | (k, c) :: l, a, hn, hd => by
    simp only [keys, List.map_cons, List.nodup_cons] at hn
    have hk : look a.scal k = look orig k := hd k (by simp [keys])
    have he := entry_scal vd pr a k c (look orig k) hk
    obtain ⟨h1, h2⟩ := specScalars_scal vd pr orig l (entry vd pr a k c (look orig k) (isMissing (look orig k))) hn.2 (by
      intro k' hk'
      rw [he, if_neg (fun e : k' = k => hn.1 (e ▸ hk'))]
      exact hd k' (by simp only [keys, List.map_cons, List.mem_cons]; exact Or.inr hk'))
    simp only [specScalars]
    refine ⟨?_, ?_⟩
    · intro k' c' hm
      rcases List.mem_cons.1 hm with hm | hm
      · simp only [Prod.mk.injEq] at hm
        obtain ⟨rfl, rfl⟩ := hm
        rw [h2 _ hn.1, he, if_pos rfl]
      · exact h1 k' c' hm
    · intro k' hk'
      simp only [keys, List.map_cons, List.mem_cons, not_or] at hk'
      rw [h2 k' hk'.2, he, if_neg hk'.1]

theorem manyScalars_scal [DecidableEq V] (vd : Vdt V C E) (pr : Bool) (c : C) : ∀ (l : List (String × V × Bool)) (a : Acc V E), (keys l).Nodup →
    (∀ k v d, (k, v, d) ∈ l → look a.scal k = some (v, d)) →
    (∀ k v d, (k, v, d) ∈ l → look (manyScalars vd pr c l a).scal k = (match vd.chk c (some v) with
      | .error _ => some (v, d)
      | .ok w => some (w, decide (w = v) && d))) ∧ (∀ k, k ∉ keys l → look (manyScalars vd pr c l a).scal k = look a.scal k)
  | [], a, _, _ => by simp [manyScalars]
  | (k, v, d) :: l, a, hn, hd => by
    simp only [keys, List.map_cons, List.nodup_cons] at hn
    have he := entry_scal_many vd pr a k c v d (hd k v d (by simp))
    obtain ⟨h1, h2⟩ := manyScalars_scal vd pr c l (entry vd pr a k c (some (v, d)) false) hn.2 (by
      intro k' v' d' hm
      rw [he, if_neg (fun e : k' = k => hn.1 (e ▸ (mem_keys l k').2 ⟨_, hm⟩))]
      exact hd k' v' d' (List.mem_cons_of_mem _ hm))
    simp only [manyScalars]
    refine ⟨?_, ?_⟩
    · intro k' v' d' hm
      rcases List.mem_cons.1 hm with hm | hm
      · simp only [Prod.mk.injEq] at hm
        obtain ⟨rfl, rfl, rfl⟩ := hm
        rw [h2 _ hn.1, he, if_pos rfl]
      · exact h1 k' v' d' hm
    · intro k' hk'
      simp only [keys, List.map_cons, List.mem_cons, not_or] at hk'
      rw [h2 k' hk'.2, he, if_neg hk'.1]

theorem isMissing_given (s : Sec V) (k : String) : isMissing (look s.scal k) = true ↔ given s k = none := by
  unfold isMissing given
  cases look s.scal k with
  | none => simp
  | some x => obtain ⟨v, d⟩ := x; cases d <;> simp

/-- C179.  The settings afterwards.  One that passes has the converted value (the default if it was missing, and it is then marked as one), one that fails is as before, and
so are those that are not checked. -/
theorem settings_after [DecidableEq V] {vd : Vdt V C E} {pr top : Bool} {p : Spec C} {s s' : Sec V} {r : R E} (hn : Names p s)
    (h : validate vd pr top p s = some (r, s')) :
    (∀ k c v, (k, c) ∈ p.scal → vd.chk c (given s k) = .ok v → ∃ d, look s'.scal k = some (v, d) ∧ (d = true ↔ given s k = none)) ∧
    (∀ k c e, (k, c) ∈ p.scal → vd.chk c (given s k) = .error e → look s'.scal k = look s.scal k) ∧
    (∀ k c v d w, p.many = some c → (k, v, d) ∈ s.scal → k ∉ keys p.scal → k ∉ keys p.sub → vd.chk c (some v) = .ok w →
      look s'.scal k = some (w, decide (w = v) && d)) ∧
    (∀ k c v d e, p.many = some c → (k, v, d) ∈ s.scal → k ∉ keys p.scal → k ∉ keys p.sub → vd.chk c (some v) = .error e → look s'.scal k = some (v, d)) ∧
    (∀ k, k ∉ keys p.scal → (p.many = none ∨ k ∉ keys s.scal ∨ k ∈ keys p.sub) → look s'.scal k = look s.scal k) := by
  obtain ⟨hc, o, ss, ex, hs, _, hs', ho⟩ := validate_some h
  have hsc : s'.scal = (acc1 vd pr p s).scal := by
    rw [hs']
    simp only [Sec.scal, acc]
    rw [(mismatch_out _ _ _ _).2.2.2.1, (mismatch_out _ _ _ _).2.2.2.1]
  rw [hsc]
  obtain ⟨a1, a2⟩ := specScalars_scal vd pr s.scal p.scal ⟨[], true, true, s.scal⟩ hn.n1 (fun k _ => rfl)
  have hothers : ∀ c, p.many = some c → (∀ k v d, (k, v, d) ∈ s.scal → k ∉ keys p.scal → k ∉ keys p.sub → look (acc1 vd pr p s).scal k = (match vd.chk c (some v) with
      | .error _ => some (v, d)
      | .ok w => some (w, decide (w = v) && d))) ∧
      (∀ k, k ∉ keys (others p s) → look (acc1 vd pr p s).scal k = look (specScalars vd pr s.scal p.scal ⟨[], true, true, s.scal⟩).scal k) := by
    intro c hm
    have := manyScalars_scal vd pr c (others p s) (specScalars vd pr s.scal p.scal ⟨[], true, true, s.scal⟩) (nodup_keys_filter _ _ hn.n4) (by
      intro k v d hk
      have h2 := (keys_others p s k).1 ((mem_keys _ _).2 ⟨_, hk⟩)
      rw [a2 k h2.2.1]
      exact look_of_mem _ _ _ hn.n4 (List.mem_of_mem_filter hk))
    have e : acc1 vd pr p s = manyScalars vd pr c (others p s) (specScalars vd pr s.scal p.scal ⟨[], true, true, s.scal⟩) := by unfold acc1; rw [hm]
    rw [e]
    refine ⟨fun k v d h1 h2 h3 => this.1 k v d ?_, this.2⟩
    simp only [others, List.mem_filter, decide_eq_true_eq, List.mem_append, not_or]
    exact ⟨h1, h2, h3⟩
  have hspec : ∀ k, (p.many = none ∨ k ∉ keys (others p s)) → look (acc1 vd pr p s).scal k = look (specScalars vd pr s.scal p.scal ⟨[], true, true, s.scal⟩).scal k := by
    intro k hk
    cases hm : p.many with
    | none => unfold acc1; rw [hm]
    | some c => exact (hothers c hm).2 k (hk.resolve_left (by simp [hm]))
  have hafter : ∀ k c, (k, c) ∈ p.scal → look (acc1 vd pr p s).scal k = after vd c (look s.scal k) := by
    intro k c hk
    rw [hspec k (Or.inr fun hh => ((keys_others p s k).1 hh).2.1 ((mem_keys _ _).2 ⟨_, hk⟩)), a1 k c hk]
  refine ⟨?_, ?_, ?_, ?_, ?_⟩
  · intro k c v hk hv
    refine ⟨isMissing (look s.scal k), ?_, isMissing_given s k⟩
    rw [hafter k c hk]
    unfold after
    rw [arg_given, hv]
  · intro k c e hk hv
    rw [hafter k c hk]
    unfold after
    rw [arg_given, hv]
  · intro k c v d w hm hk h1 h2 hv
    rw [(hothers c hm).1 k v d hk h1 h2, hv]
  · intro k c v d e hm hk h1 h2 hv
    rw [(hothers c hm).1 k v d hk h1 h2, hv]
  · intro k h1 h2
    rw [hspec k (h2.imp id (fun h hh => by
      have := (keys_others p s k).1 hh
      rcases h with h | h
      · exact h this.1
      · exact this.2.2 h)), a2 k h1]

/-- C179.  The subsections afterwards: those there and, after them, those missing, each validated on its own against its spec (one without spec is as before); and the names
outside the configspec. -/
theorem subs_after [DecidableEq V] {vd : Vdt V C E} {pr top : Bool} {p : Spec C} {s s' : Sec V} {r : R E} (hn : Names p s)
    (h : validate vd pr top p s = some (r, s')) :
    keys s'.sub = keys s.sub ++ (keys p.sub).filter (fun k => decide (k ∉ keys s.scal ∧ k ∉ keys s.sub)) ∧
    (∀ k t0, ((k, t0) ∈ s.sub ∨ (k ∈ keys p.sub ∧ k ∉ keys s.sub ∧ k ∉ keys s.scal ∧ t0 = Sec.empty)) →
      (∀ q, specFor top p k = some q → ∃ r' t, validate vd pr false q t0 = some (r', t) ∧ look s'.sub k = some t) ∧
      (specFor top p k = none → look s'.sub k = some t0)) ∧
    (∀ k, k ∈ s'.extra ↔ (p.many = none ∧ k ∈ keys s.scal ∧ k ∉ keys p.scal ∧ k ∉ keys p.sub) ∨
      (k ∈ keys s.sub ∧ specFor top p k = none ∧ ¬ (top = true ∧ k = "DEFAULT"))) := by
  obtain ⟨hc, o, ss, ex, hs, _, hs', ho⟩ := validate_some h
  obtain ⟨m1, m2, m3, m4, m5, m6⟩ := sub_mem _ _ _ _ _ hs
  have hsub : s'.sub = (allSubs p s).map fun q => (q.1, (look ss q.1).getD q.2) := by
    rw [hs']; simp only [Sec.sub, ofList_toList_secs]
  have hna := nodup_allSubs p s hn
  have hnv : (keys (visited top p s)).Nodup := nodup_keys_filter _ _ hna
  have hk' : keys s'.sub = keys (allSubs p s) := by rw [hsub]; simp [keys]
  refine ⟨?_, ?_, ?_⟩
  · rw [hk']
    unfold allSubs
    rw [keys_append]
    congr 1
    simp only [keys, List.map_map, List.filter_map]
    rfl
  · intro k t0 ht0
    have hm : (k, t0) ∈ allSubs p s := (mem_allSubs p s k t0).2 ht0
    have hl : look s'.sub k = some ((look ss k).getD t0) := by
      apply look_of_mem
      · rw [hk']; exact hna
      · rw [hsub]; exact List.mem_map.2 ⟨(k, t0), hm, rfl⟩
    constructor
    · intro q hq
      have hv : (k, t0) ∈ visited top p s := (mem_visited top p s k t0).2 ⟨hm, specFor_default _ _ _ _ hq⟩
      obtain ⟨r', t, ht⟩ := m5 k t0 _ hv (by rw [hq]; rfl)
      refine ⟨r', t, ht, ?_⟩
      have : look ss k = some t := look_of_mem _ _ _ (by rw [m2]; exact hnv) ((m4 k t).2 ⟨t0, hv, Or.inr ⟨_, r', by rw [hq]; rfl, ht⟩⟩)
      rw [hl, this]; rfl
    · intro hq
      rw [hl]
      by_cases hd : top = true ∧ k = "DEFAULT"
      · have : look ss k = none := by
          rw [look_none, m2, mem_keys]
          rintro ⟨t, ht⟩
          exact ((mem_visited top p s k t).1 ht).2 hd
        rw [this]; rfl
      · have : look ss k = some t0 := look_of_mem _ _ _ (by rw [m2]; exact hnv) ((m4 k t0).2 ⟨t0, (mem_visited top p s k t0).2 ⟨hm, hd⟩, Or.inl ⟨by rw [hq]; rfl, rfl⟩⟩)
        rw [this]; rfl
  · intro k
    have hex : s'.extra = (if p.many.isNone then keys (others p s) else []) ++ ex := by rw [hs']; rfl
    rw [hex, List.mem_append]
    apply or_congr
    · cases hm : p.many with
      | none => simp [keys_others]
      | some c => simp
    · rw [m3, mem_keys]
      simp only [Option.map_eq_none_iff]
      constructor
      · rintro ⟨⟨t, ht⟩, hq⟩
        obtain ⟨h1, h2⟩ := (mem_visited top p s k t).1 ht
        rcases (mem_allSubs p s k t).1 h1 with h1 | ⟨h3, _⟩
        · exact ⟨(mem_keys _ _).2 ⟨t, h1⟩, hq, h2⟩
        · exfalso
          unfold specFor at hq
          rw [if_neg h2] at hq
          cases hl : look p.sub k with
          | none => exact (look_none _ _).1 hl h3
          | some q => rw [hl] at hq; simp at hq
      · rintro ⟨h1, hq, hd⟩
        obtain ⟨t, ht⟩ := (mem_keys _ _).1 h1
        exact ⟨⟨t, (mem_visited top p s k t).2 ⟨(mem_allSubs p s k t).2 (Or.inl ht), hd⟩⟩, hq⟩

end Verif.ConfigValidate
