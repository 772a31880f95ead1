import Verif.ConfigSection
import Mathlib.Data.List.Basic
import Mathlib.Data.List.Nodup
import Mathlib.Data.List.InsertIdx
import Mathlib.Data.List.Infix
import Mathlib.Tactic.Tauto

/-! # Configuration sections: theorems (C154; astropysics/external/configobj.py 488-760, 838-870, 1025-1040) -/

namespace Verif.ConfigSection

variable {V : Type}

/-! ## Specification -/

/-- The bookkeeping is right: `keys()` has no key twice and lists exactly the keys that can be read, which are exactly those that have
comments. -/
structure Wf (s : Sec V) : Prop where
  nodup : (keys s).Nodup
  here : ∀ k, k ∈ keys s ↔ ∃ v, look s.items k = some v
  com : ∀ k, k ∈ keys s ↔ ∃ c, look s.comments k = some c

/-- The operations that keep it so: a value that is refused is not assigned to a new key; a key is not renamed to another existing one; a default
value is restored only where there still is an entry. -/
def Regular (K : Kinds V) (stringify : Bool) (s : Sec V) : Op V → Prop
  | .set k v => k ∈ keys s ∨ K.isSect v = true ∨ stringify = true ∨ K.isText v = true
  | .setdefault k v => k ∈ keys s ∨ K.isSect v = true ∨ stringify = true ∨ K.isText v = true
  | .rename old new => old ∈ keys s → (∃ v, getitem K s old = .ok v) → new = old ∨ new ∉ keys s
  | .restore k => (∃ v, look s.defaultValues k = some v) → k ∈ keys s
  | _ => True

/-! ## Dictionaries -/

theorem look_put {W : Type} (d : Dict W) (k k' : String) (v : W) : look (put d k v) k' = if k' = k then some v else look d k' := by
  induction d with
  | nil =>
    by_cases h : k' = k
    · simp [put, look, h]
    · simp [put, look, h, Ne.symm h]
  | cons p d ih =>
    obtain ⟨a, b⟩ := p
    rw [put]
    by_cases ha : a = k
    · subst ha
      rw [if_pos rfl, look, look]
      by_cases h : a = k'
      · simp [h]
      · simp [h, Ne.symm h]
    · rw [if_neg ha, look, look, ih]
      by_cases h : a = k'
      · subst h; simp [ha]
      · simp [h]

theorem look_del {W : Type} (d : Dict W) (k k' : String) : look (del d k) k' = if k' = k then none else look d k' := by
  unfold del
  induction d with
  | nil => simp [look]
  | cons p d ih =>
    obtain ⟨a, b⟩ := p
    rw [List.filter_cons]
    by_cases ha : a = k
    · subst ha
      simp only [ne_eq, not_true, decide_false, Bool.false_eq_true, if_false, ih, look]
      by_cases h : k' = a
      · simp [h]
      · simp [h, Ne.symm h]
    · simp only [ne_eq, ha, not_false_iff, decide_true, if_true, look, ih]
      by_cases h : a = k'
      · subst h; simp [ha]
      · simp [h]

theorem has_iff (s : Sec V) (k : String) : has s k = true ↔ ∃ v, look s.items k = some v := by
  unfold has
  cases look s.items k <;> simp

theorem has_keys {s : Sec V} (h : Wf s) (k : String) : has s k = true ↔ k ∈ keys s := by rw [has_iff, h.here]

/-! ## Renaming in a list -/

theorem erase_insertIdx (l : List String) (old new : String) (h : old ∈ l) (hn : l.Nodup) :
    replaceKey l old new = l.map (fun k => if k = old then new else k) := by
  unfold replaceKey
  induction l with
  | nil => simp at h
  | cons a l ih =>
    rw [List.nodup_cons] at hn
    by_cases ha : a = old
    · subst ha
      simp only [List.erase_cons_head, List.idxOf_cons_self, List.insertIdx_zero, List.map_cons, if_true, List.cons.injEq, true_and]
      rw [List.map_congr_left (g := id)]
      · simp
      · intro k hk
        simp only [id]
        rw [if_neg]
        rintro rfl
        exact hn.1 hk
    · have hm : old ∈ l := by
        rcases List.mem_cons.1 h with h | h
        · exact absurd h.symm ha
        · exact h
      have hbeq : (a == old) = false := by simpa using ha
      rw [List.erase_cons_tail (by simpa using ha), List.idxOf_cons, hbeq]
      simp only [cond_false, List.insertIdx_succ_cons, ih hm hn.2, List.map_cons, if_neg ha]

theorem mem_map_rename {l : List String} {old new k : String} (h : old ∈ l) :
    k ∈ l.map (fun k => if k = old then new else k) ↔ k = new ∨ (k ∈ l ∧ k ≠ old) := by
  simp only [List.mem_map]
  constructor
  · rintro ⟨a, ha, rfl⟩
    by_cases hao : a = old
    · simp [hao]
    · simp [hao, ha]
  · rintro (rfl | ⟨h1, h2⟩)
    · exact ⟨old, h, by simp⟩
    · exact ⟨k, h1, by simp [h2]⟩

theorem nodup_map_rename {l : List String} {old new : String} (hn : l.Nodup) (hnew : new = old ∨ new ∉ l) :
    (l.map (fun k => if k = old then new else k)).Nodup := by
  refine List.Nodup.map_on ?_ hn
  intro x hx y hy hxy
  by_cases h1 : x = old <;> by_cases h2 : y = old
  · rw [h1, h2]
  · simp only [h1, h2, if_true, if_false] at hxy
    subst hxy
    rcases hnew with h | h
    · exact absurd h h2
    · exact absurd hy h
  · simp only [h1, h2, if_true, if_false] at hxy
    subst hxy
    rcases hnew with h | h
    · exact absurd h h1
    · exact absurd hx h
  · simpa [h1, h2] using hxy

theorem not_nodup_map_rename {l : List String} {old new : String} (ho : old ∈ l) (hne : new ≠ old) (hnew : new ∈ l) :
    ¬ (l.map (fun k => if k = old then new else k)).Nodup := by
  intro hn
  have := List.inj_on_of_nodup_map hn ho hnew (by simp [hne])
  exact hne this.symm

/-! ## The single operations -/

/-- C154.  An assignment that is accepted: the value can be read, nothing else changes, a key that is there keeps its place and its
comments, a new one comes last among its kind and has no comments. -/
theorem set_exact (K : Kinds V) (stringify : Bool) (s : Sec V) (k : String) (v : V) (h : Wf s)
    (hok : K.isSect v = true ∨ stringify = true ∨ K.isText v = true) :
    let r := setitem K stringify s k v
    r.2 = none ∧ (∀ k', look r.1.items k' = if k' = k then some v else look s.items k') ∧
    (k ∈ keys s → keys r.1 = keys s ∧ r.1.comments = s.comments) ∧
    (k ∉ keys s → K.isSect v = true → keys r.1 = s.scalars ++ s.sections ++ [k]) ∧
    (k ∉ keys s → K.isSect v = false → keys r.1 = s.scalars ++ [k] ++ s.sections) ∧
    (k ∉ keys s → ∀ k', look r.1.comments k' = if k' = k then some ([], "") else look s.comments k') := by
  have hc : (look s.comments k).isSome = true ↔ k ∈ keys s := by
    rw [h.com]; cases look s.comments k <;> simp
  have hh := has_keys h k
  unfold setitem
  by_cases hk : k ∈ keys s
  · rw [hh.2 hk]
    have hc' := hc.2 hk
    cases hs : K.isSect v with
    | true =>
      refine ⟨rfl, fun k' => look_put _ _ _ _, fun _ => ⟨rfl, ?_⟩, fun h => absurd hk h, fun h => absurd hk h, fun h => absurd hk h⟩
      simp [noted, hc']
    | false =>
      have hst : (stringify || K.isText v) = true := by
        rcases hok with h | h | h
        · rw [hs] at h; simp at h
        · simp [h]
        · simp [h]
      simp only [hst, Bool.false_eq_true, if_false, if_true]
      refine ⟨trivial, fun k' => look_put _ _ _ _, fun _ => ⟨rfl, ?_⟩, fun h => absurd hk h, fun h => absurd hk h, fun h => absurd hk h⟩
      simp [noted, hc']
  · have hf : has s k = false := by
      cases hx : has s k with
      | false => rfl
      | true => exact absurd (hh.1 hx) hk
    have hc' : (look s.comments k).isSome = false := by
      cases hx : (look s.comments k).isSome with
      | false => rfl
      | true => exact absurd (hc.1 hx) hk
    rw [hf]
    cases hs : K.isSect v with
    | true =>
      refine ⟨rfl, fun k' => look_put _ _ _ _, fun h => absurd h hk, fun _ _ => ?_, fun _ h => by simp at h, fun _ k' => ?_⟩
      · simp [keys, noted]
      · simp only [noted, hc', Bool.false_eq_true, if_false, if_true]
        exact look_put _ _ _ _
    | false =>
      have hst : (stringify || K.isText v) = true := by
        rcases hok with h | h | h
        · rw [hs] at h; simp at h
        · simp [h]
        · simp [h]
      simp only [hst, Bool.false_eq_true, if_false, if_true]
      refine ⟨trivial, fun k' => look_put _ _ _ _, fun h => absurd h hk, fun _ h => by simp at h, fun _ _ => ?_, fun _ k' => ?_⟩
      · simp [keys, noted]
      · simp only [noted, hc', Bool.false_eq_true, if_false]
        exact look_put _ _ _ _

/-- C154.  An assignment that is refused raises TypeError.  A new key is listed all the same: it is in `keys()`, cannot be read, and from then
on `values()` and `items()` raise KeyError. -/
theorem refused_value (K : Kinds V) (s : Sec V) (k : String) (v : V) (h : Wf s) (hs : K.isSect v = false) (ht : K.isText v = false) :
    let r := setitem K false s k v
    r.2 = some .type ∧ r.1.items = s.items ∧
    (k ∈ keys s → keys r.1 = keys s) ∧
    (k ∉ keys s → k ∈ keys r.1 ∧ getitem K r.1 k = .error .key ∧ (items K r.1 = .error .key ∨ items K r.1 = .error .interp ∨
        items K r.1 = .error .type ∨ items K r.1 = .error .value)) := by
  have hh := has_keys h k
  unfold setitem
  simp only [hs, ht, Bool.or_self, Bool.false_eq_true, if_false]
  refine ⟨trivial, rfl, fun hk => ?_, fun hk => ?_⟩
  · rw [hh.2 hk]; rfl
  · have hf : has s k = false := by
      cases hx : has s k with
      | false => rfl
      | true => exact absurd (hh.1 hx) hk
    rw [hf]
    simp only [Bool.false_eq_true, if_false]
    set s2 : Sec V := { noted s k with scalars := (noted s k).scalars ++ [k] } with hs2
    have hg : getitem K s2 k = .error .key := by
      have : look s2.items k = none := by
        show look s.items k = none
        cases hl : look s.items k with
        | none => rfl
        | some v => exact absurd ((h.here k).2 ⟨v, hl⟩) hk
      rw [getitem, this]
    have hmem : k ∈ keys s2 := by simp [keys, hs2]
    refine ⟨hmem, hg, ?_⟩
    have : ∀ l : List String, k ∈ l → ∃ e, valuesOf K s2 l = .error e := by
      intro l hl
      induction l with
      | nil => simp at hl
      | cons a l ih =>
        rw [valuesOf]
        cases ha : getitem K s2 a with
        | error e => exact ⟨e, rfl⟩
        | ok w =>
          have : k ∈ l := by
            rcases List.mem_cons.1 hl with rfl | hl
            · rw [hg] at ha; simp at ha
            · exact hl
          obtain ⟨e, he⟩ := ih this
          exact ⟨e, by simp [he]⟩
    obtain ⟨e, he⟩ := this _ hmem
    simp only [items, values, he]
    cases e <;> simp

/-- C154.  Deleting: the key is gone from the dictionary, from the list it was in and from the comments, and nothing else changes.  A missing key
raises KeyError and changes nothing. -/
theorem del_exact (s : Sec V) (k : String) (h : Wf s) :
    let r := delitem s k
    (k ∉ keys s → r = (s, some .key)) ∧
    (k ∈ keys s → r.2 = none ∧ keys r.1 = (keys s).filter (fun k' => decide (k' ≠ k)) ∧
      (∀ k', look r.1.items k' = if k' = k then none else look s.items k') ∧
      (∀ k', look r.1.comments k' = if k' = k then none else look s.comments k')) := by
  have hh := has_keys h k
  refine ⟨fun hk => ?_, fun hk => ?_⟩
  · unfold delitem
    rw [if_neg (fun hx => hk (hh.1 hx))]
  · have hc : (look s.comments k).isSome = true := by
      obtain ⟨c, hc⟩ := (h.com k).1 hk
      simp [hc]
    have hn := h.nodup
    rw [keys, List.nodup_append] at hn
    unfold delitem
    rw [if_pos (hh.2 hk)]
    by_cases hsc : k ∈ s.scalars
    · simp only [if_pos hsc, hc, if_true]
      refine ⟨trivial, ?_, fun k' => look_del _ _ _, fun k' => look_del _ _ _⟩
      rw [keys, keys, List.filter_append, hn.1.erase_eq_filter]
      congr 1
      · exact List.filter_congr (fun x _ => by by_cases hx : x = k <;> simp [hx])
      · symm
        rw [List.filter_eq_self]
        intro a ha
        simp only [ne_eq, decide_eq_true_eq]
        rintro rfl
        exact hn.2.2 a hsc a ha rfl
    · have hse : k ∈ s.sections := by
        rw [keys, List.mem_append] at hk
        tauto
      simp only [if_neg hsc, if_pos hse, hc, if_true]
      refine ⟨trivial, ?_, fun k' => look_del _ _ _, fun k' => look_del _ _ _⟩
      rw [keys, keys, List.filter_append, hn.2.1.erase_eq_filter]
      congr 1
      · symm
        rw [List.filter_eq_self]
        intro a ha
        simp only [ne_eq, decide_eq_true_eq]
        rintro rfl
        exact hsc ha
      · exact List.filter_congr (fun x _ => by by_cases hx : x = k <;> simp [hx])

/-- C154.  Renaming to a new name: the key keeps its place, its comments and its value (as it reads), and nothing else changes. -/
theorem rename_exact (K : Kinds V) (s : Sec V) (old new : String) (v : V) (h : Wf s) (hold : old ∈ keys s) (hv : getitem K s old = .ok v) :
    let r := rename K s old new
    r.2 = none ∧ keys r.1 = (keys s).map (fun k => if k = old then new else k) ∧
    (∀ k, look r.1.items k = if k = new then some v else if k = old then none else look s.items k) ∧
    (∀ k, look r.1.comments k = if k = new then look s.comments old else if k = old then none else look s.comments k) := by
  obtain ⟨c, hc⟩ := (h.com old).1 hold
  have hn := h.nodup
  rw [keys, List.nodup_append] at hn
  have hid : ∀ l : List String, old ∉ l → l.map (fun k => if k = old then new else k) = l := by
    intro l hl
    rw [List.map_congr_left (g := id)]
    · simp
    · intro k hk
      simp only [id]
      rw [if_neg]
      rintro rfl
      exact hl hk
  unfold rename
  by_cases hsc : old ∈ s.scalars
  · simp only [if_pos hsc, hv, renamed, hc]
    refine ⟨trivial, ?_, fun k => ?_, fun k => ?_⟩
    · rw [keys, keys, List.map_append, erase_insertIdx _ _ _ hsc hn.1, hid s.sections]
      intro hx
      exact hn.2.2 old hsc old hx rfl
    · rw [look_put, look_del]
    · rw [look_put, look_del]
  · have hse : old ∈ s.sections := by
      rw [keys, List.mem_append] at hold
      tauto
    simp only [if_neg hsc, if_pos hse, hv, renamed, hc]
    refine ⟨trivial, ?_, fun k => ?_, fun k => ?_⟩
    · rw [keys, keys, List.map_append, erase_insertIdx _ _ _ hse hn.2.1, hid s.scalars hsc]
    · rw [look_put, look_del]
    · rw [look_put, look_del]

theorem rename_fails (K : Kinds V) (s : Sec V) (old new : String) :
    (old ∉ keys s → rename K s old new = (s, some .key)) ∧
    (∀ e, old ∈ keys s → getitem K s old = .error e → rename K s old new = (s, some e)) := by
  constructor
  · intro h
    rw [keys, List.mem_append, not_or] at h
    rw [rename, if_neg h.1, if_neg h.2]
  · intro e h he
    rw [keys, List.mem_append] at h
    rw [rename]
    by_cases h1 : old ∈ s.scalars
    · rw [if_pos h1, he]
    · rw [if_neg h1, if_pos (by tauto), he]

/-! ## The bookkeeping under every operation -/

theorem mem_filter_ne {l : List String} {k k' : String} : k' ∈ l.filter (fun x => decide (x ≠ k)) ↔ k' ∈ l ∧ k' ≠ k := by
  simp

theorem wf_del {s : Sec V} (h : Wf s) (k : String) : Wf (delitem s k).1 := by
  obtain ⟨h1, h2⟩ := del_exact s k h
  by_cases hk : k ∈ keys s
  · obtain ⟨_, hkeys, hi, hc⟩ := h2 hk
    refine ⟨by rw [hkeys]; exact h.nodup.filter _, fun k' => ?_, fun k' => ?_⟩
    · rw [hkeys, mem_filter_ne, hi, h.here]
      by_cases hkk : k' = k <;> simp [hkk]
    · rw [hkeys, mem_filter_ne, hc, h.com]
      by_cases hkk : k' = k <;> simp [hkk]
  · rw [h1 hk]; exact h

theorem wf_set_iff (K : Kinds V) (stringify : Bool) {s : Sec V} (h : Wf s) (k : String) (v : V) :
    Wf (setitem K stringify s k v).1 ↔ (k ∈ keys s ∨ K.isSect v = true ∨ stringify = true ∨ K.isText v = true) := by
  by_cases hok : K.isSect v = true ∨ stringify = true ∨ K.isText v = true
  · refine ⟨fun _ => .inr hok, fun _ => ?_⟩
    obtain ⟨_, hi, hold, hsec, hsc, hcom⟩ := set_exact K stringify s k v h hok
    by_cases hk : k ∈ keys s
    · obtain ⟨e1, e2⟩ := hold hk
      refine ⟨by rw [e1]; exact h.nodup, fun k' => ?_, fun k' => ?_⟩
      · rw [e1, hi, h.here]
        by_cases hkk : k' = k
        · subst hkk
          simp [(h.here k').1 hk]
        · simp [hkk]
      · rw [e1, e2, h.com]
    · have hmem : ∀ k', k' ∈ keys (setitem K stringify s k v).1 ↔ k' ∈ keys s ∨ k' = k := by
        intro k'
        cases hs : K.isSect v with
        | true => rw [hsec hk hs]; simp only [keys, List.mem_append, List.mem_singleton]
        | false => rw [hsc hk hs]; simp only [keys, List.mem_append, List.mem_singleton]; tauto
      refine ⟨?_, fun k' => ?_, fun k' => ?_⟩
      · have hn := h.nodup
        have hk' : k ∉ s.scalars ∧ k ∉ s.sections := by
          rw [keys, List.mem_append, not_or] at hk; exact hk
        cases hs : K.isSect v with
        | true =>
          rw [hsec hk hs]
          refine List.Nodup.append hn (by simp) ?_
          intro x hx hx'
          simp only [List.mem_singleton] at hx'
          subst hx'
          exact hk hx
        | false =>
          rw [hsc hk hs]
          rw [keys, List.nodup_append] at hn
          simp only [List.nodup_append, List.mem_append, List.mem_singleton]
          refine ⟨⟨hn.1, by simp, ?_⟩, hn.2.1, ?_⟩
          · rintro a ha b rfl rfl
            exact hk'.1 ha
          · rintro a (ha | rfl) b hb rfl
            · exact hn.2.2 a ha a hb rfl
            · exact hk'.2 hb
      · rw [hmem, hi, h.here]
        by_cases hkk : k' = k <;> simp [hkk]
      · rw [hmem, hcom hk, h.com]
        by_cases hkk : k' = k <;> simp [hkk]
  · simp only [not_or, Bool.not_eq_true] at hok
    obtain ⟨h1, h2, h3⟩ := hok
    subst h2
    obtain ⟨_, hit, hold, hnew⟩ := refused_value K s k v h h1 h3
    constructor
    · intro hw
      by_contra hk
      simp only [h1, h3, Bool.false_eq_true, or_self, or_false] at hk
      obtain ⟨hm, hg, _⟩ := hnew hk
      obtain ⟨w, hwl⟩ := (hw.here k).1 hm
      rw [hit] at hwl
      exact hk ((h.here k).2 ⟨w, hwl⟩)
    · rintro (hk | hk | hk | hk)
      · have e := hold hk
        refine ⟨by rw [e]; exact h.nodup, fun k' => by rw [e, hit, h.here], fun k' => ?_⟩
        rw [e, h.com]
        have : (setitem K false s k v).1.comments = s.comments := by
          have hc : (look s.comments k).isSome = true := by
            obtain ⟨c, hc⟩ := (h.com k).1 hk
            simp [hc]
          simp [setitem, h1, h3, noted, hc]
        rw [this]
      · rw [h1] at hk; simp at hk
      · simp at hk
      · rw [h3] at hk; simp at hk

/-- C154.  After every operation the bookkeeping is right if and only if the operation is regular. -/
theorem wf_step_iff (K : Kinds V) (stringify : Bool) {s : Sec V} (h : Wf s) (op : Op V) :
    Wf (step K stringify s op) ↔ Regular K stringify s op := by
  cases op with
  | set k v => exact wf_set_iff K stringify h k v
  | del k => simpa [Regular, step] using wf_del h k
  | pop k d =>
    simp only [Regular, iff_true, step, pop]
    cases hg : getitem K s k with
    | error e => cases e <;> first | exact h | (cases d <;> exact h)
    | ok v =>
      simp only
      have := wf_del h k
      cases (delitem s k).2 <;> exact this
  | popitem =>
    simp only [Regular, iff_true, step, popitem]
    cases hk : s.scalars ++ s.sections with
    | nil => exact h
    | cons k l =>
      simp only
      cases hg : getitem K s k with
      | error e => exact h
      | ok v =>
        simp only
        have := wf_del h k
        cases (delitem s k).2 <;> exact this
  | clear =>
    simp only [Regular, iff_true, step, clear]
    exact ⟨by simp [keys], fun k => by simp [keys, look], fun k => by simp [keys, look]⟩
  | setdefault k d =>
    simp only [Regular, step, setdefault]
    cases hl : look s.items k with
    | none =>
      have hg : getitem K s k = .error .key := by rw [getitem, hl]
      rw [← wf_set_iff K stringify h k d, hg]
      simp only
      cases (setitem K stringify s k d).2 <;> exact Iff.rfl
    | some v =>
      have hk : k ∈ keys s := (h.here k).2 ⟨v, hl⟩
      have hw := (wf_set_iff K stringify h k d).2 (.inl hk)
      cases hg : getitem K s k with
      | ok w => simp [hk, h]
      | error e =>
        cases e <;> simp only [hk, true_or, iff_true] <;> try exact h
        cases (setitem K stringify s k d).2 <;> exact hw
  | rename old new =>
    simp only [Regular, step]
    by_cases hold : old ∈ keys s
    · cases hg : getitem K s old with
      | error e =>
        rw [(rename_fails K s old new).2 e hold hg]
        simp [h]
      | ok v =>
        obtain ⟨_, hkeys, hi, hc⟩ := rename_exact K s old new v h hold hg
        constructor
        · intro hw _ _
          by_contra hx
          simp only [not_or, not_not] at hx
          have := hw.nodup
          rw [hkeys] at this
          exact not_nodup_map_rename hold hx.1 hx.2 this
        · intro hx
          have hx := hx hold ⟨v, rfl⟩
          refine ⟨by rw [hkeys]; exact nodup_map_rename h.nodup hx, fun k => ?_, fun k => ?_⟩
          · rw [hkeys, mem_map_rename hold, hi, h.here]
            by_cases h1 : k = new
            · simp [h1]
            · by_cases h2 : k = old <;> simp [h1, h2]
          · rw [hkeys, mem_map_rename hold, hc]
            by_cases h1 : k = new
            · simp [h1, (h.com old).1 hold]
            · rw [h.com]
              by_cases h2 : k = old
              · subst h2; simp [h1]
              · simp [h1, h2]
    · rw [(rename_fails K s old new).1 hold]
      simp [h, hold]
  | restore k =>
    simp only [Regular, step, restoreDefault]
    cases hd : look s.defaultValues k with
    | none => simp [h]
    | some d =>
      simp only [Option.some.injEq, exists_eq', forall_const]
      constructor
      · intro hw
        exact (hw.here k).2 ⟨d, by simp [look_put]⟩
      · intro hk
        refine ⟨h.nodup, fun k' => ?_, h.com⟩
        have := h.here k'
        simp only [keys] at this ⊢
        rw [this, look_put]
        by_cases hkk : k' = k
        · subst hkk
          simp [(h.here k').1 hk]
        · simp [hkk]

/-- A history of operations, each of them regular when it happens. -/
inductive History (K : Kinds V) (stringify : Bool) : Sec V → Prop
  | start : History K stringify empty
  | more {s op} : History K stringify s → Regular K stringify s op → History K stringify (step K stringify s op)

/-- C154.  Whatever was done to a section before, its bookkeeping is right. -/
theorem wf_history (K : Kinds V) (stringify : Bool) {s : Sec V} (h : History K stringify s) : Wf s := by
  induction h with
  | start => exact ⟨by simp [empty, keys], fun k => by simp [empty, keys, look], fun k => by simp [empty, keys, look]⟩
  | more _ hr ih => exact (wf_step_iff K stringify ih _).2 hr

/-! ## Reading -/

/-- C154.  `items()` gives every entry once, scalars before sections, each with the value that reading it gives. -/
theorem items_exact (K : Kinds V) {s : Sec V} (h : Wf s) (l : List (String × V)) :
    items K s = .ok l ↔ l.map Prod.fst = keys s ∧ ∀ p ∈ l, getitem K s p.1 = .ok p.2 := by
  have key : ∀ (ks : List String) (vs : List V), valuesOf K s ks = .ok vs ↔ ks.length = vs.length ∧ ∀ p ∈ ks.zip vs, getitem K s p.1 = .ok p.2 := by
    intro ks
    induction ks with
    | nil =>
      intro vs
      simp only [valuesOf, Except.ok.injEq, List.length_nil]
      constructor
      · rintro rfl; simp
      · rintro ⟨h, _⟩; exact (List.length_eq_zero_iff.1 h.symm).symm
    | cons k ks ih =>
      intro vs
      rw [valuesOf]
      constructor
      · intro hx
        cases hg : getitem K s k with
        | error e => rw [hg] at hx; simp at hx
        | ok v =>
          rw [hg] at hx
          cases hv : valuesOf K s ks with
          | error e => simp [hv] at hx
          | ok ws =>
            simp only [hv, Except.ok.injEq] at hx
            subst hx
            obtain ⟨h1, h2⟩ := (ih ws).1 hv
            refine ⟨by simp [h1], ?_⟩
            intro p hp
            rw [List.zip_cons_cons, List.mem_cons] at hp
            rcases hp with rfl | hp
            · exact hg
            · exact h2 p hp
      · rintro ⟨h1, h2⟩
        cases vs with
        | nil => simp at h1
        | cons v vs =>
          rw [List.zip_cons_cons] at h2
          rw [h2 (k, v) (by simp)]
          simp only
          rw [(ih vs).2 ⟨by simpa using h1, fun p hp => h2 p (by simp [hp])⟩]
  unfold items values
  constructor
  · intro hx
    cases hv : valuesOf K s (keys s) with
    | error e => rw [hv] at hx; simp at hx
    | ok vs =>
      rw [hv] at hx
      simp only [Except.ok.injEq] at hx
      subst hx
      obtain ⟨h1, h2⟩ := (key _ _).1 hv
      exact ⟨List.map_fst_zip (by omega), h2⟩
  · rintro ⟨h1, h2⟩
    have hz : (keys s).zip (l.map Prod.snd) = l := by
      rw [← h1]
      exact (List.zip_of_prod rfl rfl).symm
    rw [(key (keys s) (l.map Prod.snd)).2 ⟨by rw [← h1]; simp, by rw [hz]; exact h2⟩]
    simp [hz]

/-- C154.  `items()` works whenever every single entry can be read. -/
theorem items_total (K : Kinds V) {s : Sec V} (h : Wf s) (hrd : ∀ k v, look s.items k = some v → ∃ w, K.rd k v = .ok w) : ∃ l, items K s = .ok l := by
  have key : ∀ ks : List String, (∀ k ∈ ks, k ∈ keys s) → ∃ vs, valuesOf K s ks = .ok vs := by
    intro ks
    induction ks with
    | nil => exact fun _ => ⟨[], rfl⟩
    | cons k ks ih =>
      intro hks
      obtain ⟨v, hv⟩ := (h.here k).1 (hks k (by simp))
      obtain ⟨w, hw⟩ := hrd k v hv
      obtain ⟨vs, hvs⟩ := ih (fun k' hk' => hks k' (by simp [hk']))
      refine ⟨w :: vs, ?_⟩
      have hg : getitem K s k = .ok w := by rw [getitem, hv]; exact hw
      rw [valuesOf, hg]
      simp only [hvs]
  obtain ⟨vs, hvs⟩ := key (keys s) (fun _ h => h)
  exact ⟨_, by simp only [items, values, hvs]; rfl⟩

/-- C154.  `popitem()` takes the first entry of `items()`. -/
theorem popitem_exact (K : Kinds V) {s : Sec V} (h : Wf s) {k : String} {v : V} {l : List (String × V)} (hi : items K s = .ok ((k, v) :: l)) :
    (popitem K s).2 = .ok (k, v) ∧ items K (popitem K s).1 = .ok l := by
  obtain ⟨h1, h2⟩ := (items_exact K h _).1 hi
  have hg := h2 (k, v) (by simp)
  have hk : keys s = k :: l.map Prod.fst := by rw [← h1]; rfl
  have hmem : k ∈ keys s := by simp [hk]
  obtain ⟨_, hd⟩ := del_exact s k h
  obtain ⟨hd1, hd2, hd3, _⟩ := hd hmem
  have hp : popitem K s = ((delitem s k).1, .ok (k, v)) := by
    have hk' : s.scalars ++ s.sections = k :: l.map Prod.fst := hk
    unfold popitem
    rw [hk']
    simp only [hg, hd1]
  rw [hp]
  refine ⟨rfl, (items_exact K (wf_del h k) _).2 ⟨?_, ?_⟩⟩
  · rw [hd2, hk]
    have hn := h.nodup
    rw [hk, List.nodup_cons] at hn
    rw [List.filter_cons]
    simp only [ne_eq, not_true, decide_false, Bool.false_eq_true, if_false]
    symm
    rw [List.filter_eq_self]
    intro a ha
    simp only [decide_eq_true_eq]
    rintro rfl
    exact hn.1 ha
  · intro p hpl
    have hne : p.1 ≠ k := by
      have hn := h.nodup
      rw [hk, List.nodup_cons] at hn
      intro hpk
      exact hn.1 (hpk ▸ List.mem_map_of_mem hpl)
    have := h2 p (by simp [hpl])
    rw [getitem] at this ⊢
    rw [hd3, if_neg hne]
    exact this

/-- C154.  `pop` returns what reading the key gives and deletes it; the default is returned for a key that is not there. -/
theorem pop_exact (K : Kinds V) {s : Sec V} (h : Wf s) (k : String) (d : Option V) (hrd : ∀ k v, K.rd k v ≠ .error .key) :
    (∀ v, getitem K s k = .ok v → pop K s k d = ((delitem s k).1, .ok v)) ∧
    (k ∉ keys s → pop K s k d = (s, d.elim (.error .key) .ok)) ∧
    (∀ e, k ∈ keys s → getitem K s k = .error e → pop K s k d = (s, .error e)) := by
  refine ⟨fun v hv => ?_, fun hk => ?_, fun e hk he => ?_⟩
  · have hmem : k ∈ keys s := by
      rw [h.here]
      rw [getitem] at hv
      cases hl : look s.items k with
      | none => rw [hl] at hv; simp at hv
      | some w => exact ⟨w, rfl⟩
    unfold pop
    rw [hv]
    simp only [((del_exact s k h).2 hmem).1]
  · have : getitem K s k = .error .key := by
      rw [getitem]
      cases hl : look s.items k with
      | none => rfl
      | some w => exact absurd ((h.here k).2 ⟨w, hl⟩) hk
    unfold pop
    rw [this]
    cases d <;> rfl
  · obtain ⟨w, hw⟩ := (h.here k).1 hk
    unfold pop
    rw [he]
    rw [getitem, hw] at he
    cases e with
    | key => exact absurd he (hrd k w)
    | _ => rfl

/-- C154.  `setdefault` leaves an entry that is there alone and otherwise assigns. -/
theorem setdefault_exact (K : Kinds V) (stringify : Bool) {s : Sec V} (h : Wf s) (k : String) (d : V) (hrd : ∀ k v, K.rd k v ≠ .error .key) :
    (k ∈ keys s → setdefault K stringify s k d = (s, getitem K s k)) ∧
    (k ∉ keys s → (setdefault K stringify s k d).1 = (setitem K stringify s k d).1 ∧
      ((setitem K stringify s k d).2 = none → (setdefault K stringify s k d).2 = K.rd k d)) := by
  constructor
  · intro hk
    obtain ⟨w, hw⟩ := (h.here k).1 hk
    rw [setdefault]
    cases hg : getitem K s k with
    | ok v => rfl
    | error e =>
      rw [getitem, hw] at hg
      cases e with
      | key => exact absurd hg (hrd k w)
      | _ => rfl
  · intro hk
    have : getitem K s k = .error .key := by
      rw [getitem]
      cases hl : look s.items k with
      | none => rfl
      | some w => exact absurd ((h.here k).2 ⟨w, hl⟩) hk
    rw [setdefault, this]
    simp only
    constructor
    · cases (setitem K stringify s k d).2 <;> rfl
    · intro hn
      rw [hn]
      simp only
      have hok : K.isSect d = true ∨ stringify = true ∨ K.isText d = true := by
        by_contra hx
        simp only [not_or, Bool.not_eq_true] at hx
        obtain ⟨a, b, c⟩ := hx
        subst b
        rw [(refused_value K s k d h a c).1] at hn
        simp at hn
      obtain ⟨_, hi, _⟩ := set_exact K stringify s k d h hok
      rw [getitem, hi, if_pos rfl]

/-- C154.  `update` assigns the items one after the other. -/
theorem update_exact (K : Kinds V) (s : Sec V) (h : Wf s) : ∀ (l : List (String × V)),
    (update K true s l).2 = none ∧ Wf (update K true s l).1 ∧
    ∀ k, look (update K true s l).1.items k = match look l.reverse k with | some v => some v | none => look s.items k := by
  intro l
  induction l generalizing s with
  | nil => exact ⟨rfl, h, fun k => rfl⟩
  | cons p l ih =>
    obtain ⟨k0, v0⟩ := p
    obtain ⟨h1, hi, _⟩ := set_exact K true s k0 v0 h (.inr (.inl rfl))
    have hw := (wf_set_iff K true h k0 v0).2 (.inr (.inr (.inl rfl)))
    have e : update K true s ((k0, v0) :: l) = update K true (setitem K true s k0 v0).1 l := by
      rw [update]
      simp only [h1]
    rw [e]
    obtain ⟨i1, i2, i3⟩ := ih _ hw
    refine ⟨i1, i2, fun k => ?_⟩
    rw [i3, hi]
    have hap : ∀ (a : Dict V) (k : String), look (a ++ [(k0, v0)]) k = match look a k with | some v => some v | none => if k = k0 then some v0 else none := by
      intro a k
      induction a with
      | nil =>
        simp only [List.nil_append, look]
        by_cases hk : k = k0
        · simp [hk]
        · simp [hk, Ne.symm hk]
      | cons q a ih =>
        obtain ⟨qa, qb⟩ := q
        rw [List.cons_append, look, look, ih]
        by_cases hq : qa = k <;> simp [hq]
    rw [List.reverse_cons, hap]
    cases look l.reverse k with
    | some v => rfl
    | none =>
      by_cases hk : k = k0 <;> simp [hk]

/-- C154.  An item that is refused ends `update`: the ones before it are assigned, those after it are not. -/
theorem update_stops (K : Kinds V) (stringify : Bool) (l1 l2 : List (String × V)) (k : String) (v : V) {e : Err} : ∀ (s s1 s2 : Sec V),
    update K stringify s l1 = (s1, none) → setitem K stringify s1 k v = (s2, some e) → update K stringify s (l1 ++ (k, v) :: l2) = (s2, some e) := by
  induction l1 with
  | nil =>
    intro s s1 s2 h1 h2
    rw [update] at h1
    cases h1
    rw [List.nil_append, update]
    simp only [h2]
  | cons p l ih =>
    intro s s1 s2 h1 h2
    rw [List.cons_append, update]
    rw [update] at h1
    rcases hs : setitem K stringify s p.1 p.2 with ⟨s', _ | e'⟩
    · rw [hs] at h1
      exact ih _ _ _ h1 h2
    · rw [hs] at h1; cases h1

/-- C154.  An assigned value is no default any more. -/
theorem set_defaults (K : Kinds V) (stringify : Bool) (s : Sec V) (k k' : String) (v : V) (h : s.defaults.Nodup) :
    k' ∈ (setitem K stringify s k v).1.defaults ↔ k' ≠ k ∧ k' ∈ s.defaults := by
  have : (setitem K stringify s k v).1.defaults = s.defaults.erase k := by
    unfold setitem noted
    simp only
    split_ifs <;> rfl
  rw [this, h.mem_erase_iff]

/-! ## Defects -/

/-- C154.  Assigning a section to a key that holds a scalar leaves the key among the scalars, and the other way round. -/
theorem kind_change_keeps_list (K : Kinds V) (s : Sec V) (k : String) (v : V) (h : Wf s) (hk : k ∈ keys s) :
    (setitem K true s k v).1.scalars = s.scalars ∧ (setitem K true s k v).1.sections = s.sections ∧
    look (setitem K true s k v).1.items k = some v := by
  have hh := (has_keys h k).2 hk
  unfold setitem
  cases hs : K.isSect v <;> simp [hh, noted, look_put]

/-- C154.  Renaming a key to the name of another entry of the same kind: the other entry's value and comments are lost and the name is listed
twice. -/
theorem rename_onto_existing (K : Kinds V) (s : Sec V) (old new : String) (v : V) (h : Wf s) (hold : old ∈ keys s) (hnew : new ∈ keys s)
    (hne : new ≠ old) (hv : getitem K s old = .ok v) :
    let r := (rename K s old new).1
    look r.items new = some v ∧ (keys r).count new = 2 ∧ (keys r).length = (keys s).length := by
  obtain ⟨_, hkeys, hi, _⟩ := rename_exact K s old new v h hold hv
  refine ⟨by rw [hi, if_pos rfl], ?_, by rw [hkeys, List.length_map]⟩
  rw [hkeys]
  have key : ∀ l : List String, l.Nodup → (l.map (fun k => if k = old then new else k)).count new = l.count old + l.count new := by
    intro l hn
    clear hn
    induction l with
    | nil => simp
    | cons a l ih =>
      rw [List.map_cons, List.count_cons, List.count_cons, List.count_cons, ih]
      by_cases h1 : a = old
      · subst h1
        have : (a == new) = false := by simpa using Ne.symm hne
        simp [this]; omega
      · by_cases h2 : a = new
        · subst h2
          have : (a == old) = false := by simpa using h1
          simp [h1]; omega
        · simp [h1, h2]
  rw [key _ h.nodup, List.count_eq_one_of_mem h.nodup hold, List.count_eq_one_of_mem h.nodup hnew]

/-- C154.  `clear` keeps the default values: restoring one afterwards makes an entry that can be read but is not listed. -/
theorem clear_restore (s : Sec V) (k : String) (d : V) (hd : look s.defaultValues k = some d) :
    look (restoreDefault (clear s) k).1.items k = some d ∧ keys (restoreDefault (clear s) k).1 = [] := by
  have : look (clear s).defaultValues k = some d := hd
  rw [restoreDefault, this]
  exact ⟨by simp [look_put], rfl⟩

/-- C154.  Restoring a default: a key without one is a KeyError and changes nothing; otherwise the value of that key is the default again,
the key counts as a default (once), and everything else, the order of the keys too, is as it was. -/
theorem restore_exact (s : Sec V) (k : String) :
    (look s.defaultValues k = none → restoreDefault s k = (s, .error .key)) ∧
    (∀ d, look s.defaultValues k = some d → (restoreDefault s k).2 = .ok d ∧
      (∀ k', look (restoreDefault s k).1.items k' = if k' = k then some d else look s.items k') ∧
      (∀ k', k' ∈ (restoreDefault s k).1.defaults ↔ k' = k ∨ k' ∈ s.defaults) ∧
      (s.defaults.Nodup → (restoreDefault s k).1.defaults.Nodup) ∧ keys (restoreDefault s k).1 = keys s ∧
      (restoreDefault s k).1.scalars = s.scalars ∧ (restoreDefault s k).1.comments = s.comments ∧
      (restoreDefault s k).1.defaultValues = s.defaultValues) := by
  refine ⟨fun h => by rw [restoreDefault, h], ?_⟩
  intro d hd
  rw [restoreDefault, hd]
  simp only [keys, and_true]
  refine ⟨trivial, fun k' => look_put _ _ _ _, ?_, ?_⟩
  · intro k'
    split_ifs with h
    · constructor
      · exact Or.inr
      · rintro (rfl | h')
        · exact h
        · exact h'
    · simp [or_comm]
  · intro hn
    split_ifs with h
    · exact hn
    · exact List.nodup_append.2 ⟨hn, by simp, by intro a ha b hb; simp at hb; subst hb; rintro rfl; exact h ha⟩

/-! ## A case -/

/-- Numbers stand for values: multiples of 10 are sections, odd numbers are no strings. -/
def sampleKinds : Kinds Nat := ⟨fun n => n % 10 == 0, fun n => n % 2 == 0, fun _ n => .ok n⟩

def sampleSec : Sec Nat :=
  [Op.set "b" 2, .set "sec" 10, .set "a" 4, .set "b" 6, .rename "a" "c", .set "x" 8, .del "x"].foldl (step sampleKinds false) empty

example : History sampleKinds false sampleSec := by
  unfold sampleSec
  simp only [List.foldl]
  refine .more (.more (.more (.more (.more (.more (.more .start ?_) ?_) ?_) ?_) ?_) ?_) ?_
  · exact .inr (.inr (.inr rfl))
  · exact .inr (.inl rfl)
  · exact .inr (.inr (.inr rfl))
  · exact .inl (by decide)
  · exact fun _ _ => .inr (by decide)
  · exact .inr (.inr (.inr rfl))
  · trivial

example : items sampleKinds sampleSec = .ok [("b", 6), ("c", 4), ("sec", 10)] := rfl

end Verif.ConfigSection
