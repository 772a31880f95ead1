import Verif.Field
import Mathlib.Data.List.Nodup
import Mathlib.Data.List.Perm.Basic

/-!
# Property theorems for `Field` (C17, C18, C48, C49)
-/

namespace Verif.Field

open Verif

/-- No two values have the same source. -/
def UniqueSources (f : State) : Prop := (f.vals.map Val.src).Nodup

/-- The calls C17 is proved for: everything but `insert` with a `Source` object as key. -/
def Op.NoSourceInsert : Op → Prop
  | .insert (.source _) _ => False
  | _ => True

theorem conv_ok {f f1 : State} {v v' : Val} {c : Check} (h : conv f v c = .ok (f1, v')) :
    f1.vals = f.vals ∧ f1.notes = f.notes ∧ v'.src = v.src ∧ v'.oid = v.oid ∧ v'.val = v.val ∧
    (c ≠ .off → v'.ty = .good) ∧ (c = .off → v' = v) ∧
    (c = .present → v.src ∉ f.vals.map Val.src) ∧ (∀ s, c = .expect s → v.src = s) := by
  have hv : tyOk v c = true → (coerce v c).src = v.src ∧ (coerce v c).oid = v.oid ∧ (coerce v c).val = v.val ∧
      (c ≠ .off → (coerce v c).ty = .good) ∧ (c = .off → coerce v c = v) := by
    intro ht
    cases c <;> cases hty : v.ty <;> simp_all [coerce, tyOk]
  have hsrc : srcOk f v c = true →
      (c = .present → v.src ∉ f.vals.map Val.src) ∧ (∀ s, c = .expect s → v.src = s) := by
    intro hs
    refine ⟨?_, ?_⟩
    · rintro rfl hm
      obtain ⟨w, hw, he⟩ := List.mem_map.mp hm
      simp [srcOk] at hs
      exact hs w hw he
    · rintro s rfl; simpa [srcOk] using hs
  unfold conv at h
  split at h
  · simp at h
  · rename_i hs
    split at h
    · simp at h
    · rename_i ht
      obtain ⟨a, b, c', d, e⟩ := hv (by simpa using ht)
      obtain ⟨g1, g2⟩ := hsrc (by simpa using hs)
      split at h
      · split at h
        · simp at h
        · simp only [Except.ok.injEq, Prod.mk.injEq] at h
          obtain ⟨rfl, rfl⟩ := h
          exact ⟨rfl, rfl, a, b, c', d, e, g1, g2⟩
      · simp only [Except.ok.injEq, Prod.mk.injEq] at h
        obtain ⟨rfl, rfl⟩ := h
        exact ⟨rfl, rfl, a, b, c', d, e, g1, g2⟩

theorem replaceAt_vals (f : State) (p : Nat) (z : Bool) (v : Val) :
    (replaceAt f p z v).1.vals = f.vals ∨
    ∃ old v', f.vals[p]? = some old ∧ v'.src = old.src ∧ v'.ty = .good ∧ (replaceAt f p z v).1.vals = f.vals.set p v' := by
  unfold replaceAt
  split
  · left; rfl
  · rename_i old hold
    split
    · left; rfl
    · rename_i f1 v' hc
      obtain ⟨h1, _, h3, _, _, h6, _, _, h9⟩ := conv_ok hc
      right
      refine ⟨old, v', hold, by rw [h3]; exact h9 _ rfl, h6 (by simp), ?_⟩
      dsimp only
      split <;> simp [notify, h1]

theorem set_same_src {l : List Val} {p : Nat} {old v : Val} (h : l[p]? = some old) (hs : v.src = old.src) :
    (l.set p v).map Val.src = l.map Val.src := by
  apply List.ext_getElem?
  intro i
  simp only [List.getElem?_map, List.getElem?_set]
  split
  · rename_i hi; subst hi
    split
    · rw [h]; simp [hs]
    · rename_i hlt; rw [List.getElem?_eq_none (by omega)]
  · rfl

theorem find_lt {vals : List Val} {k : Key} {p : Nat} (h : find vals k = .ok p) : p < vals.length := by
  cases k with
  | int i =>
    simp only [find] at h
    split at h
    · rename_i q hq
      simp at h; subst h
      unfold Py.idx at hq
      split at hq <;> split at hq <;> simp at hq <;> omega
    · simp at h
  | source s =>
    simp only [find] at h
    split at h
    · rename_i q hq; simp at h; subst h
      exact (List.findIdx?_eq_some_iff_getElem.mp hq).1
    · simp at h
  | str s =>
    simp only [find] at h
    split at h
    · rename_i q hq; simp at h; subst h
      exact (List.findIdx?_eq_some_iff_getElem.mp hq).1
    · simp at h
  | derived n =>
    simp only [find] at h
    split at h
    · simp at h
    · split at h
      · simp at h
      · split at h
        · rename_i q hq; simp at h; subst h
          exact (List.findIdx?_eq_some_iff_getElem.mp hq).1
        · simp at h

theorem delitem_vals (f : State) (k : Key) :
    (delitem f k).1.vals = f.vals ∨ ∃ p, find f.vals k = .ok p ∧ (delitem f k).1.vals = f.vals.eraseIdx p := by
  unfold delitem
  split
  · left; rfl
  · rename_i p hp
    right
    refine ⟨p, hp, ?_⟩
    dsimp only
    split <;> rfl

theorem insert_split {α : Type} (l : List α) (i : Int) (x : α) :
    ∃ a b, l = a ++ b ∧ Py.insert l i x = a ++ x :: b :=
  ⟨l.take (Py.insertPos l.length i), l.drop (Py.insertPos l.length i), (List.take_append_drop _ _).symm, rfl⟩

theorem eraseIdx_filter {l : List Val} {s : String} {p : Nat} (hn : (l.map Val.src).Nodup)
    (hp : l.findIdx? (fun v => v.src = s) = some p) : l.eraseIdx p = l.filter (fun v => v.src ≠ s) := by
  induction l generalizing p with
  | nil => simp at hp
  | cons v l ih =>
    rw [List.map_cons, List.nodup_cons] at hn
    rw [List.findIdx?_cons] at hp
    by_cases hv : v.src = s
    · simp [hv] at hp
      subst hp
      simp only [List.eraseIdx_cons_zero, List.filter_cons, hv, ne_eq, not_true_eq_false, decide_false,
        Bool.false_eq_true, if_false]
      symm
      apply List.filter_eq_self.mpr
      intro w hw
      simp
      rintro rfl
      exact hn.1 (List.mem_map.mpr ⟨w, hw, by rw [hv]⟩)
    · simp [hv] at hp
      obtain ⟨q, hq, rfl⟩ := hp
      simp only [List.eraseIdx_cons_succ, List.filter_cons, hv, ne_eq, not_false_eq_true, decide_true, if_true]
      rw [ih hn.2 hq]

theorem findIdx?_of_any {l : List Val} {s : String} (h : l.any (fun w => w.src = s) = true) :
    ∃ p, l.findIdx? (fun v => v.src = s) = some p := by
  cases hp : l.findIdx? (fun v => v.src = s) with
  | some p => exact ⟨p, rfl⟩
  | none =>
    rw [List.findIdx?_eq_none_iff] at hp
    simp only [List.any_eq_true] at h
    obtain ⟨w, hw, he⟩ := h
    have := hp w hw
    rw [this] at he
    simp at he

/-- The values after `setCurrObj` succeeded, for a field with unique sources. -/
theorem setCurrObj_vals (f : State) (hu : UniqueSources f) (v : Val) :
    (setCurrObj f v).1.vals = f.vals ∧ (∃ e, (setCurrObj f v).2 = .error e) ∨
    (setCurrObj f v).1.vals = v :: f.vals.filter (fun w => w.src ≠ v.src) ∧ (setCurrObj f v).2 = .ok () := by
  unfold setCurrObj
  split
  · left; exact ⟨rfl, _, rfl⟩
  · rename_i f1 v' hc
    obtain ⟨h1, _, h3, _, _, _, h7, _, _⟩ := conv_ok hc
    have hv := h7 rfl
    subst hv
    right
    refine ⟨?_, rfl⟩
    dsimp only [notify]
    congr 1
    split
    · rename_i hany
      obtain ⟨p, hp⟩ := findIdx?_of_any hany
      have hfind : find f1.vals (.source v'.src) = .ok p := by simp [find, hp]
      rcases delitem_vals f1 (.source v'.src) with h | ⟨q, hq, h⟩
      · unfold delitem at h ⊢
        rw [hfind] at h ⊢
        dsimp only at h ⊢
        have : f1.vals.eraseIdx p = f.vals.filter (fun w => w.src ≠ v'.src) := by
          rw [h1] at hp ⊢; exact eraseIdx_filter hu hp
        rw [← this]
        split <;> rfl
      · rw [hfind] at hq
        simp at hq; subst hq
        rw [h]
        rw [h1] at hp ⊢
        exact eraseIdx_filter hu hp
    · rename_i hany
      rw [h1]
      rw [h1] at hany
      symm
      apply List.filter_eq_self.mpr
      intro w hw
      simp only [Bool.not_eq_true, List.any_eq_false, decide_eq_true_eq] at hany
      simpa using hany w hw

theorem setCurrKey_vals (f : State) (k : Key) :
    (setCurrKey f k).1.vals = f.vals ∧ (∃ e, (setCurrKey f k).2 = .error e) ∨
    ∃ p v, find f.vals k = .ok p ∧ f.vals[p]? = some v ∧ (setCurrKey f k).1.vals = v :: f.vals.eraseIdx p ∧
      (setCurrKey f k).2 = .ok () := by
  unfold setCurrKey
  split
  · left; exact ⟨rfl, _, rfl⟩
  · rename_i p hp
    split
    · left; exact ⟨rfl, _, rfl⟩
    · rename_i v hv
      right; exact ⟨p, v, hp, hv, rfl, rfl⟩

theorem insertAt_vals (f : State) (i : Int) (v : Val) : (insertAt f i v).1.vals = Py.insert f.vals i v := by
  unfold insertAt
  dsimp only
  split <;> simp [notify]

theorem insert_vals (f : State) (k : Key) (v : Val) (hk : ∀ s, k ≠ .source s) :
    (insert f k v).1.vals = f.vals ∨
    ∃ v' i, v'.src = v.src ∧ v'.ty = .good ∧ v.src ∉ f.vals.map Val.src ∧ (insert f k v).1.vals = Py.insert f.vals i v' := by
  have hc0 : insertCheck k = .present := by
    cases k with
    | source s => exact absurd rfl (hk s)
    | _ => rfl
  unfold insert
  rw [hc0]
  split
  · left; rfl
  · rename_i f1 v' hc
    obtain ⟨h1, _, h3, _, _, h6, _, h8, _⟩ := conv_ok hc
    cases k with
    | int i =>
      right; refine ⟨v', i, h3, h6 (by simp), h8 rfl, ?_⟩
      simp only [insertAt_vals, h1]
    | source s => exact absurd rfl (hk s)
    | str s =>
      dsimp only
      split
      · left; exact h1
      · rename_i p _
        right; refine ⟨v', p, h3, h6 (by simp), h8 rfl, ?_⟩
        simp only [insertAt_vals, h1]
    | derived n =>
      dsimp only
      split
      · left; exact h1
      · rename_i p _
        right; refine ⟨v', p, h3, h6 (by simp), h8 rfl, ?_⟩
        simp only [insertAt_vals, h1]

theorem setitem_vals (f : State) (k : Key) (inp : In) :
    (setitem f k inp).1.vals = f.vals ∨
    (∃ p old v', f.vals[p]? = some old ∧ v'.src = old.src ∧ v'.ty = .good ∧ (setitem f k inp).1.vals = f.vals.set p v') ∨
    (∃ v', v'.src ∉ f.vals.map Val.src ∧ v'.ty = .good ∧ (setitem f k inp).1.vals = f.vals ++ [v']) := by
  have happ : ∀ v, (appendNew f v).1.vals = f.vals ∨
      ∃ v', v'.src ∉ f.vals.map Val.src ∧ v'.ty = .good ∧ (appendNew f v).1.vals = f.vals ++ [v'] := by
    intro v
    unfold appendNew
    split
    · left; rfl
    · rename_i f1 v' hc
      obtain ⟨h1, _, h3, _, _, h6, _, h8, _⟩ := conv_ok hc
      right; exact ⟨v', by rw [h3]; exact h8 rfl, h6 (by simp), by simp [h1]⟩
  have hrep : ∀ p z v, (replaceAt f p z v).1.vals = f.vals ∨
    (∃ p' old v', f.vals[p']? = some old ∧ v'.src = old.src ∧ v'.ty = .good ∧ (replaceAt f p z v).1.vals = f.vals.set p' v') := by
    intro p z v
    rcases replaceAt_vals f p z v with h | ⟨old, v', h⟩
    · left; exact h
    · right; exact ⟨p, old, v', h⟩
  have hgen : ∀ k' : Key, setByKey f k' inp = setitem f k inp →
      (setitem f k inp).1.vals = f.vals ∨
      (∃ p old v', f.vals[p]? = some old ∧ v'.src = old.src ∧ v'.ty = .good ∧ (setitem f k inp).1.vals = f.vals.set p v') ∨
      (∃ v', v'.src ∉ f.vals.map Val.src ∧ v'.ty = .good ∧ (setitem f k inp).1.vals = f.vals ++ [v']) := by
    intro k' h
    rw [← h]
    unfold setByKey
    split
    · rcases hrep _ _ _ with h | h
      · left; exact h
      · right; left; exact h
    · rcases happ _ with h | h
      · left; exact h
      · right; right; exact h
  cases k with
  | int i =>
    simp only [setitem]
    split
    · left; rfl
    · rcases hrep _ _ _ with h | h
      · left; exact h
      · right; left; exact h
  | source s => exact hgen (.source s) rfl
  | str s => exact hgen (.str s) rfl
  | derived n => exact hgen (.derived n) rfl

theorem unique_step (f : State) (op : Op) (hs : op.NoSourceInsert) (hu : UniqueSources f) :
    UniqueSources (step f op).1 := by
  unfold UniqueSources at *
  have hins : ∀ i (v' : Val), v'.src ∉ f.vals.map Val.src → ((Py.insert f.vals i v').map Val.src).Nodup := by
    intro i v' hv
    obtain ⟨a, b, hab, hi⟩ := insert_split f.vals i v'
    rw [hi]
    have : ((a ++ v' :: b).map Val.src).Perm ((v' :: f.vals).map Val.src) := by
      rw [hab]; exact (List.perm_middle).map _
    rw [this.nodup_iff, List.map_cons, List.nodup_cons]
    exact ⟨hv, hu⟩
  cases op with
  | setitem k inp =>
    rcases setitem_vals f k inp with h | ⟨p, old, v', h1, h2, _, h3⟩ | ⟨v', h1, _, h3⟩
    · simp only [step, h]; exact hu
    · simp only [step, h3]; rw [set_same_src h1 h2]; exact hu
    · simp only [step, h3, List.map_append, List.map_cons, List.map_nil]
      rw [List.nodup_append]
      refine ⟨hu, by simp, ?_⟩
      intro a ha b hb
      simp at hb; subst hb
      rintro rfl
      exact h1 ha
  | delitem k =>
    rcases delitem_vals f k with h | ⟨p, _, h⟩
    · simp only [step, h]; exact hu
    · simp only [step, h]
      exact hu.sublist ((List.eraseIdx_sublist _ _).map _)
  | insert k v =>
    have hk : ∀ s, k ≠ .source s := by rintro s rfl; exact hs
    rcases insert_vals f k v hk with h | ⟨v', i, h1, _, h2, h3⟩
    · simp only [step, h]; exact hu
    · simp only [step, h3]; exact hins i v' (by rw [h1]; exact h2)
  | append v =>
    rcases insert_vals f (.int f.vals.length) v (by simp) with h | ⟨v', i, h1, _, h2, h3⟩
    · simp only [step, append, h]; exact hu
    · simp only [step, append, h3]; exact hins i v' (by rw [h1]; exact h2)
  | setCurrKey k =>
    rcases setCurrKey_vals f k with ⟨h, _⟩ | ⟨p, v, _, hv, h, _⟩
    · simp only [step, h]; exact hu
    · simp only [step, h]
      have hlt := (List.getElem?_eq_some_iff.mp hv)
      have hp : (v :: f.vals.eraseIdx p).Perm f.vals := by
        have := List.getElem_cons_eraseIdx_perm hlt.1
        rw [hlt.2] at this; exact this
      rw [(hp.map _).nodup_iff]; exact hu
  | setCurrObj v =>
    rcases setCurrObj_vals f hu v with ⟨h, _⟩ | ⟨h, _⟩
    · simp only [step, h]; exact hu
    · simp only [step, h, List.map_cons, List.nodup_cons]
      refine ⟨?_, hu.sublist ((List.filter_sublist).map _)⟩
      intro hm
      obtain ⟨w, hw, he⟩ := List.mem_map.mp hm
      simp at hw
      exact hw.2 he

/-- **C17**: after any history without `insert` by a `Source` object, no two values of a field have the same source.
Missing: `insert(Source,…)`, for which it is false (`insert_source_duplicates`). -/
theorem field_sources_unique_on_domain (ops : List Op) (hs : ∀ op ∈ ops, op.NoSourceInsert) :
    ((run init ops).vals.map Val.src).Nodup := by
  have : ∀ (f : State), UniqueSources f → UniqueSources (run f ops) := by
    clear * - hs
    induction ops with
    | nil => intro f hu; exact hu
    | cons op ops ih =>
      intro f hu
      exact ih (fun o ho => hs o (List.mem_cons_of_mem _ ho)) _
        (unique_step f op (hs op (List.mem_cons_self ..)) hu)
  exact this init (by simp [UniqueSources, init])

/-- **C17**: consequently looking a source up finds *the* value of that source. -/
theorem lookup_unique (ops : List Op) (hs : ∀ op ∈ ops, op.NoSourceInsert) (s : String) (v w : Val)
    (hv : v ∈ (run init ops).vals) (hvs : v.src = s) (hg : getitem (run init ops) (.str s) = .ok w) : w = v := by
  have hu := field_sources_unique_on_domain ops hs
  set f := run init ops
  unfold getitem find at hg
  dsimp only at hg
  cases hp : f.vals.findIdx? (fun v => v.src = s) with
  | none => simp [hp] at hg
  | some p =>
    obtain ⟨hlt, hsrc, _⟩ := List.findIdx?_eq_some_iff_getElem.mp hp
    simp only [hp, List.getElem?_eq_getElem hlt, Except.ok.injEq] at hg
    rw [hg] at hsrc
    simp at hsrc
    have hw : w ∈ f.vals := by rw [← hg]; exact List.getElem_mem hlt
    exact List.inj_on_of_nodup_map hu hw hv (by rw [hsrc, hvs])

/-- C17 fails for `insert(Source('a'), value)`: it stores a second value of the source 'a'. -/
theorem insert_source_duplicates :
    (run init [.setitem (.str "a") (.raw 1 .good 10), .insert (.source "a") ⟨2, "a", false, .good, 20⟩]).vals.map Val.src
      = ["a", "a"] := by decide

/-- A history with replacements, a rejected duplicate, moves and a deletion. -/
example : (run init [.setitem (.str "a") (.raw 1 .good 10), .append ⟨2, "b", false, .good, 20⟩,
    .append ⟨3, "b", false, .good, 30⟩, .setCurrKey (.str "b"), .insert (.int 1) ⟨4, "c", true, .floatable, 40⟩,
    .setCurrObj ⟨5, "a", false, .good, 50⟩, .delitem (.derived 0)]).vals
    = [⟨5, "a", false, .good, 50⟩, ⟨2, "b", false, .good, 20⟩] := by decide

/-! ## C18 -/

/-- **C18**, selecting a value by key: it comes first and all others keep their relative order; a key that is not there
raises and changes nothing. -/
theorem setCurrKey_moves_to_front (f : State) (k : Key) :
    (∃ e, (setCurrKey f k).2 = .error e) ∧ (setCurrKey f k).1.vals = f.vals ∨
    (setCurrKey f k).2 = .ok () ∧ ∃ a v b, f.vals = a ++ v :: b ∧ (setCurrKey f k).1.vals = v :: (a ++ b) ∧
      getitem f k = .ok v ∧ current (setCurrKey f k).1 = some v := by
  rcases setCurrKey_vals f k with ⟨h, he⟩ | ⟨p, v, hp, hv, h, hok⟩
  · left; exact ⟨he, h⟩
  · right
    have hlt := (List.getElem?_eq_some_iff.mp hv)
    refine ⟨hok, f.vals.take p, v, f.vals.drop (p + 1), ?_, ?_, ?_, ?_⟩
    · rw [← hlt.2, List.getElem_cons_drop, List.take_append_drop]
    · rw [h, List.eraseIdx_eq_take_drop_succ]
    · simp [getitem, hp, hv]
    · simp [current, h]

/-- **C18**, assigning a value object: in a field with unique sources it comes first, only a former value of the same
source disappears, and the rest keeps its order; if it raises, nothing changes. -/
theorem setCurrObj_replaces_own_source (f : State) (hu : (f.vals.map Val.src).Nodup) (v : Val) :
    (∃ e, (setCurrObj f v).2 = .error e) ∧ (setCurrObj f v).1.vals = f.vals ∨
    (setCurrObj f v).2 = .ok () ∧ (setCurrObj f v).1.vals = v :: f.vals.filter (fun w => w.src ≠ v.src) := by
  rcases setCurrObj_vals f hu v with ⟨h, he⟩ | ⟨h, hok⟩
  · left; exact ⟨he, h⟩
  · right; exact ⟨hok, h⟩

example : (setCurrObj ⟨[⟨1, "a", false, .good, 1⟩, ⟨2, "b", false, .good, 2⟩, ⟨3, "c", false, .good, 3⟩], [], []⟩
    ⟨9, "b", false, .good, 7⟩).1.vals
    = [⟨9, "b", false, .good, 7⟩, ⟨1, "a", false, .good, 1⟩, ⟨3, "c", false, .good, 3⟩] := by decide

/-! ## C48: type enforcement -/

/-- All values have passed the field's type check. -/
def WellTyped (f : State) : Prop := ∀ v ∈ f.vals, v.ty = .good

/-- **C48**: after any history in which the current value is only chosen by key (and no `Source`-key inserts), all
values have the field's type.
Missing: `currentobj = value`, which does not check the type (`setCurrObj_skips_type_check`). -/
theorem field_well_typed_on_domain (ops : List Op)
    (hs : ∀ op ∈ ops, op.NoSourceInsert ∧ ∀ v, op ≠ .setCurrObj v) : WellTyped (run init ops) := by
  have hstep : ∀ f op, op.NoSourceInsert → (∀ v, op ≠ .setCurrObj v) → WellTyped f → WellTyped (step f op).1 := by
    intro f op h1 h2 hw
    unfold WellTyped at *
    have hins : ∀ i (v' : Val), v'.ty = .good → ∀ v ∈ Py.insert f.vals i v', v.ty = .good := by
      intro i v' hv' v hv
      obtain ⟨a, b, hab, hi⟩ := insert_split f.vals i v'
      rw [hi] at hv
      rcases List.mem_append.mp hv with h | h
      · exact hw v (by rw [hab]; exact List.mem_append_left _ h)
      · rcases List.mem_cons.mp h with rfl | h
        · exact hv'
        · exact hw v (by rw [hab]; exact List.mem_append_right _ h)
    cases op with
    | setitem k inp =>
      rcases setitem_vals f k inp with h | ⟨p, old, v', _, _, hg, h3⟩ | ⟨v', _, hg, h3⟩
      · simp only [step, h]; exact hw
      · simp only [step, h3]
        intro v hv
        rcases List.mem_or_eq_of_mem_set hv with h | rfl
        · exact hw v h
        · exact hg
      · simp only [step, h3]
        intro v hv
        rcases List.mem_append.mp hv with h | h
        · exact hw v h
        · simp at h; subst h; exact hg
    | delitem k =>
      rcases delitem_vals f k with h | ⟨p, _, h⟩
      · simp only [step, h]; exact hw
      · simp only [step, h]
        intro v hv; exact hw v (List.mem_of_mem_eraseIdx hv)
    | insert k v =>
      have hk : ∀ s, k ≠ .source s := by rintro s rfl; exact h1
      rcases insert_vals f k v hk with h | ⟨v', i, _, hg, _, h3⟩
      · simp only [step, h]; exact hw
      · simp only [step, h3]; exact hins i v' hg
    | append v =>
      rcases insert_vals f (.int f.vals.length) v (by simp) with h | ⟨v', i, _, hg, _, h3⟩
      · simp only [step, append, h]; exact hw
      · simp only [step, append, h3]; exact hins i v' hg
    | setCurrKey k =>
      rcases setCurrKey_vals f k with ⟨h, _⟩ | ⟨p, v, _, hv, h, _⟩
      · simp only [step, h]; exact hw
      · simp only [step, h]
        intro w hw'
        rcases List.mem_cons.mp hw' with rfl | h'
        · exact hw _ (List.mem_of_getElem? hv)
        · exact hw w (List.mem_of_mem_eraseIdx h')
    | setCurrObj v => exact absurd rfl (h2 v)
  have : ∀ (f : State), WellTyped f → WellTyped (run f ops) := by
    clear * - hs hstep
    induction ops with
    | nil => intro f hw; exact hw
    | cons op ops ih =>
      intro f hw
      have := hs op (List.mem_cons_self ..)
      exact ih (fun o ho => hs o (List.mem_cons_of_mem _ ho)) _ (hstep f op this.1 this.2 hw)
  exact this init (by simp [WellTyped, init])

/-- Assigning `currentobj` stores a value that the field's type rejects. -/
theorem setCurrObj_skips_type_check :
    ¬ WellTyped (run init [.setCurrObj ⟨1, "a", false, .bad, 10⟩]) := by
  intro h
  have := h ⟨1, "a", false, .bad, 10⟩ (by decide)
  simp at this

/-! ## C49: notifications -/

/-- The full claim C49 for one call: if the current value changes, the last notification of the call says so. -/
def Notifies (f : State) (op : Op) : Prop :=
  current (step f op).1 ≠ current f →
    ∃ ns, (step f op).1.notes = f.notes ++ ns ∧ ns.getLast? = some (current f, current (step f op).1)

/-- Calls for which C49 holds: selecting the current value; replacing or deleting by source or by a
non-negative index; replacing in a field that has the key. -/
def Op.NotifySafe (f : State) : Op → Prop
  | .setCurrKey _ => True
  | .setCurrObj _ => True
  | .delitem (.int i) => 0 ≤ i
  | .delitem _ => True
  | .setitem (.int i) _ => 0 ≤ i
  | .setitem _ _ => f.vals ≠ []
  | _ => False

theorem getElem?_zero_set {l : List Val} {p : Nat} {v : Val} (hp : p ≠ 0) : (l.set p v)[0]? = l[0]? := by
  cases l with
  | nil => simp
  | cons a l => cases p with
    | zero => exact absurd rfl hp
    | succ p => simp

theorem getElem?_zero_erase {l : List Val} {p : Nat} (hp : p ≠ 0) : (l.eraseIdx p)[0]? = l[0]? := by
  cases l with
  | nil => simp
  | cons a l => cases p with
    | zero => exact absurd rfl hp
    | succ p => simp

theorem idx_nonneg {n : Nat} {i : Int} {p : Nat} (h : Py.idx n i = some p) (hi : 0 ≤ i) : i = p := by
  unfold Py.idx at h
  rw [if_pos hi] at h
  split at h
  · simp at h; omega
  · simp at h

theorem replaceAt_notifies (f : State) (p : Nat) (z : Bool) (v : Val) (hz : z = decide (p = 0)) :
    ((replaceAt f p z v).1).vals[0]? ≠ f.vals[0]? →
    ∃ ns, (replaceAt f p z v).1.notes = f.notes ++ ns ∧
      ns.getLast? = some (f.vals[0]?, (replaceAt f p z v).1.vals[0]?) := by
  subst hz
  unfold replaceAt
  cases hold : f.vals[p]? with
  | none => intro h; exact absurd rfl h
  | some old =>
    simp only
    cases hc : conv f v (.expect old.src) with
    | error e => intro h; exact absurd rfl h
    | ok r =>
      obtain ⟨f1, v'⟩ := r
      obtain ⟨h1, h2, _⟩ := conv_ok hc
      simp only
      by_cases hp : p = 0
      · subst hp
        intro _
        have hlt := (List.getElem?_eq_some_iff.mp hold).1
        refine ⟨[(f.vals[0]?, some v')], ?_, ?_⟩
        · simp [notify, h1, h2]
        · simp [notify, h1, hlt]
      · intro h
        exfalso
        apply h
        simp only [hp, decide_false, Bool.false_eq_true, if_false, h1]
        exact getElem?_zero_set hp

/-- **C49** for the calls listed in `Op.NotifySafe`. Missing: negative indices, the first value of an empty
field, and `insert`, for which it is false (below). -/
theorem current_change_notifies (f : State) (op : Op) (hs : op.NotifySafe f) : Notifies f op := by
  unfold Notifies current
  cases op with
  | setCurrKey k =>
    intro h
    simp only [step, setCurrKey] at h ⊢
    cases hf : find f.vals k with
    | error e => simp [hf] at h
    | ok p =>
      simp only [hf] at h ⊢
      cases hv : f.vals[p]? with
      | none => simp [hv] at h
      | some v => exact ⟨[(f.vals[0]?, some v)], by simp [notify], by simp⟩
  | setCurrObj v =>
    intro h
    simp only [step, setCurrObj] at h ⊢
    cases hc : conv f v .off with
    | error e => simp [hc] at h
    | ok r =>
      obtain ⟨f1, v'⟩ := r
      obtain ⟨h1, h2, _⟩ := conv_ok hc
      simp only [hc]
      have hpre : ∃ ns, (if f1.vals.any (fun w => w.src = v'.src) then (delitem f1 (.source v'.src)).1 else f1).notes
          = f.notes ++ ns := by
        split
        · unfold delitem
          split
          · exact ⟨[], by simp [h2]⟩
          · dsimp only
            split
            · exact ⟨[(f1.vals[0]?, f1.vals[1]?)], by simp [notify, h2]⟩
            · exact ⟨[], by simp [h2]⟩
        · exact ⟨[], by simp [h2]⟩
      obtain ⟨ns, hns⟩ := hpre
      exact ⟨ns ++ [(f.vals[0]?, some v')], by simp only [notify]; rw [hns, List.append_assoc], by simp⟩
  | delitem k =>
    intro h
    simp only [step, delitem] at h ⊢
    cases hf : find f.vals k with
    | error e => simp [hf] at h
    | ok p =>
      have hz : k.isZero p = decide (p = 0) := by
        unfold Key.isZero
        cases k with
        | int i =>
          simp only [find] at hf
          split at hf
          · rename_i q hq
            simp at hf; subst hf
            have := idx_nonneg hq hs
            simp [this]
          · simp at hf
        | _ => rfl
      simp only [hf, hz] at h ⊢
      by_cases hp : p = 0
      · subst hp
        refine ⟨[(f.vals[0]?, f.vals[1]?)], by simp [notify], ?_⟩
        cases hvl : f.vals with
        | nil => simp [notify, hvl]
        | cons a l => simp [notify, hvl]
      · exfalso
        apply h
        simp only [hp, decide_false, Bool.false_eq_true, if_false]
        exact getElem?_zero_erase hp
  | setitem k inp =>
    have hgen : ∀ k' : Key, f.vals ≠ [] → setByKey f k' inp = setitem f k inp →
      (setitem f k inp).1.vals[0]? ≠ f.vals[0]? →
      ∃ ns, (setitem f k inp).1.notes = f.notes ++ ns ∧
        ns.getLast? = some (f.vals[0]?, (setitem f k inp).1.vals[0]?) := by
      intro k' hne heq
      rw [← heq]
      unfold setByKey
      cases hf : find f.vals k' with
      | ok p => exact replaceAt_notifies f p _ _ rfl
      | error e =>
        simp only [appendNew]
        cases hc : conv f (inp.wrapped k') .present with
        | error e => intro h; exact absurd rfl h
        | ok r =>
          obtain ⟨f1, v'⟩ := r
          obtain ⟨h1, h2, _⟩ := conv_ok hc
          intro h
          exfalso
          apply h
          simp only [h1]
          cases hvl : f.vals with
          | nil => exact absurd hvl hne
          | cons a l => rfl
    cases k with
    | int i =>
      simp only [step, setitem]
      cases hx : Py.idx f.vals.length i with
      | none => intro h; exact absurd rfl h
      | some p =>
        have := idx_nonneg hx hs
        exact replaceAt_notifies f p _ _ (by simp [this])
    | source s => exact hgen (.source s) hs rfl
    | str s => exact hgen (.str s) hs rfl
    | derived n => exact hgen (.derived n) hs rfl
  | insert k v => exact absurd hs id
  | append v => exact absurd hs id

/-- The current value replaced through a negative index: nobody is told. -/
theorem negative_index_not_notified :
    ¬ Notifies ⟨[⟨1, "a", false, .good, 1⟩], [], []⟩ (.setitem (.int (-1)) (.obj ⟨2, "a", false, .good, 2⟩)) := by
  intro h
  obtain ⟨ns, h1, h2⟩ := h (by decide)
  have : (step ⟨[⟨1, "a", false, .good, 1⟩], [], []⟩
    (.setitem (.int (-1)) (.obj ⟨2, "a", false, .good, 2⟩))).1.notes = [] := by decide
  rw [this] at h1
  simp at h1
  subst h1
  simp at h2

/-- The first value stored in an empty field: nobody is told. -/
theorem first_value_not_notified :
    ¬ Notifies init (.setitem (.str "a") (.raw 1 .good 10)) := by
  intro h
  obtain ⟨ns, h1, h2⟩ := h (by decide)
  have : (step init (.setitem (.str "a") (.raw 1 .good 10))).1.notes = [] := by decide
  rw [this] at h1
  simp [init] at h1
  subst h1
  simp at h2

/-- `insert(0, value)` notifies with old and new exchanged. -/
theorem insert_notifies_swapped :
    (step ⟨[⟨1, "a", false, .good, 1⟩], [], []⟩ (.insert (.int 0) ⟨2, "b", false, .good, 2⟩)).1.notes
      = [(some ⟨2, "b", false, .good, 2⟩, some ⟨1, "a", false, .good, 1⟩)] := by decide

end Verif.Field
