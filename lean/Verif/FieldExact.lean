import Verif.FieldProps

/-!
# C17, C48, C49: exactly which histories keep the claims about fields
-/

namespace Verif.Field

/-! ## C17 -/

/-- A successful `insert(Source, value)`. -/
def Op.SourceInserted (f : State) (op : Op) : Prop :=
  ∃ s v, op = .insert (.source s) v ∧ (step f op).2 = .ok ()

theorem insert_source_vals (f : State) (s : String) (v : Val) :
    ((step f (.insert (.source s) v)).1.vals = f.vals ∧ (step f (.insert (.source s) v)).2 ≠ .ok ()) ∨
    ∃ v' i, v'.src = s ∧ v'.ty = .good ∧ s ∈ f.vals.map Val.src ∧
      (step f (.insert (.source s) v)).1.vals = Py.insert f.vals i v' ∧ (step f (.insert (.source s) v)).2 = .ok () := by
  simp only [step, insert, insertCheck]
  cases hc : conv f v (.expect s) with
  | error e => left; exact ⟨rfl, by simp⟩
  | ok r =>
    obtain ⟨f1, v'⟩ := r
    obtain ⟨h1, _, h3, _, _, h6, _, _, h9⟩ := conv_ok hc
    simp only [find, h1]
    cases hf : f.vals.findIdx? (fun v => v.src = s) with
    | none => left; exact ⟨h1, by simp⟩
    | some p =>
      right
      refine ⟨v', p, by rw [h3]; exact h9 s rfl, h6 (by simp), ?_, ?_, rfl⟩
      · have := (List.findIdx?_eq_some_iff_getElem.mp hf)
        obtain ⟨hp, hs, _⟩ := this
        exact List.mem_map.mpr ⟨f.vals[p], List.getElem_mem hp, by simpa using hs⟩
      · unfold insertAt
        dsimp only
        split_ifs <;> simp [notify, h1]

/-- **C17**, one call: on a field with values of different sources a call leaves two values of one source
exactly if it is a successful `insert` with a `Source` as key. -/
theorem sources_unique_step_iff (f : State) (op : Op) (hu : (f.vals.map Val.src).Nodup) :
    ((step f op).1.vals.map Val.src).Nodup ↔ ¬ op.SourceInserted f := by
  constructor
  · rintro hn ⟨s, v, rfl, hok⟩
    rcases insert_source_vals f s v with ⟨_, h⟩ | ⟨v', i, h1, _, h2, h3, _⟩
    · exact h hok
    · rw [h3] at hn
      obtain ⟨a, b, hab, hi⟩ := insert_split f.vals i v'
      rw [hi] at hn
      have hp : ((a ++ v' :: b).map Val.src).Perm ((v' :: f.vals).map Val.src) := by
        rw [hab]; exact (List.perm_middle).map _
      have := (hp.nodup_iff.mp hn)
      rw [List.map_cons, List.nodup_cons] at this
      exact this.1 (by rw [h1]; exact h2)
  · intro h
    by_cases hs : op.NoSourceInsert
    · exact unique_step f op hs hu
    · have : ∃ s v, op = .insert (.source s) v := by
        cases op with
        | insert k v => cases k <;> first | exact ⟨_, _, rfl⟩ | exact absurd trivial hs
        | _ => exact absurd trivial hs
      obtain ⟨s, v, rfl⟩ := this
      rcases insert_source_vals f s v with ⟨h1, _⟩ | ⟨v', i, _, _, _, _, h5⟩
      · rw [h1]; exact hu
      · exact absurd ⟨s, v, rfl, h5⟩ h

/-- No `insert` with a `Source` as key succeeded. -/
def NoneInserted : State → List Op → Prop
  | _, [] => True
  | f, op :: ops => ¬ op.SourceInserted f ∧ NoneInserted (step f op).1 ops

/-- **C17**: after every history in which no `insert` with a `Source` as key succeeded, no two values have the same source. -/
theorem field_sources_unique (ops : List Op) (h : NoneInserted init ops) : ((run init ops).vals.map Val.src).Nodup := by
  have : ∀ (f : State), (f.vals.map Val.src).Nodup → NoneInserted f ops → ((run f ops).vals.map Val.src).Nodup := by
    clear h
    induction ops with
    | nil => intro f hu _; exact hu
    | cons op ops ih =>
      intro f hu hn
      exact ih _ ((sources_unique_step_iff f op hu).mpr hn.1) hn.2
  exact this init (by simp [init]) h

/-- The refused insertion does not count. -/
example : NoneInserted init [.setitem (.str "a") (.raw 1 .good 10), .insert (.source "b") ⟨2, "b", false, .good, 20⟩,
    .insert (.int 0) ⟨3, "c", false, .good, 30⟩] := by
  refine ⟨?_, ?_, ?_, trivial⟩
  · rintro ⟨s, v, h, _⟩; cases h
  · rintro ⟨s, v, h, hok⟩
    revert hok; decide
  · rintro ⟨s, v, h, _⟩; cases h

/-! ## C48 -/

/-- An assignment `field.currentobj = value` that succeeds with a value the field's type refuses. -/
def Op.IllTyped (f : State) (op : Op) : Prop :=
  ∃ v, op = .setCurrObj v ∧ v.ty ≠ .good ∧ (step f op).2 = .ok ()

theorem setCurrObj_shape (f : State) (v : Val) :
    ((setCurrObj f v).1.vals = f.vals ∧ (setCurrObj f v).2 ≠ .ok ()) ∨
    ∃ l, (setCurrObj f v).1.vals = v :: l ∧ (∀ w ∈ l, w ∈ f.vals) ∧ (setCurrObj f v).2 = .ok () := by
  unfold setCurrObj
  cases hc : conv f v .off with
  | error e => left; exact ⟨rfl, by simp⟩
  | ok r =>
    obtain ⟨f1, v'⟩ := r
    obtain ⟨h1, _, _, _, _, _, h7, _, _⟩ := conv_ok hc
    have hv := h7 rfl
    subst hv
    right
    refine ⟨(if f1.vals.any (fun w => w.src = v'.src) then (delitem f1 (.source v'.src)).1 else f1).vals, rfl, ?_, rfl⟩
    intro w hw
    split_ifs at hw with h
    · rcases delitem_vals f1 (.source v'.src) with h | ⟨p, _, h⟩
      · rw [h, h1] at hw; exact hw
      · rw [h, h1] at hw; exact List.mem_of_mem_eraseIdx hw
    · rw [h1] at hw; exact hw

/-- **C48**, one call: a field of well-typed values stays one exactly if the call is not a successful
assignment of an ill-typed current value. -/
theorem well_typed_step_iff (f : State) (op : Op) (hw : WellTyped f) :
    WellTyped (step f op).1 ↔ ¬ op.IllTyped f := by
  constructor
  · rintro h ⟨v, rfl, hv, hok⟩
    rcases setCurrObj_shape f v with ⟨_, h2⟩ | ⟨l, h1, _, _⟩
    · exact h2 hok
    · exact hv (h v (by simp only [step]; rw [h1]; simp))
  · intro h
    have hins : ∀ i (v' : Val), v'.ty = .good → ∀ v ∈ Py.insert f.vals i v', v.ty = .good := by
      intro i v' hv' v hv
      obtain ⟨a, b, hab, hi⟩ := insert_split f.vals i v'
      rw [hi] at hv
      rcases List.mem_append.mp hv with h | h
      · exact hw v (by rw [hab]; exact List.mem_append_left _ h)
      · rcases List.mem_cons.mp h with rfl | h
        · exact hv'
        · exact hw v (by rw [hab]; exact List.mem_append_right _ h)
    unfold WellTyped at *
    cases op with
    | setitem k inp =>
      rcases setitem_vals f k inp with h | ⟨p, old, v', _, _, hg, h3⟩ | ⟨v', _, hg, h3⟩
      · simp only [step, h]; exact hw
      · simp only [step, h3]
        intro v hv
        rcases List.mem_or_eq_of_mem_set hv with h | rfl
        · exact hw v h
        · exact hg
      · simp only [step, h3]
        intro v hv
        rcases List.mem_append.mp hv with h | h
        · exact hw v h
        · simp at h; subst h; exact hg
    | delitem k =>
      rcases delitem_vals f k with h | ⟨p, _, h⟩
      · simp only [step, h]; exact hw
      · simp only [step, h]
        intro v hv; exact hw v (List.mem_of_mem_eraseIdx hv)
    | insert k v =>
      by_cases hk : ∀ s, k ≠ .source s
      · rcases insert_vals f k v hk with h | ⟨v', i, _, hg, _, h3⟩
        · simp only [step, h]; exact hw
        · simp only [step, h3]; exact hins i v' hg
      · push Not at hk
        obtain ⟨s, rfl⟩ := hk
        rcases insert_source_vals f s v with ⟨h1, _⟩ | ⟨v', i, _, hg, _, h3, _⟩
        · rw [h1]; exact hw
        · rw [h3]; exact hins i v' hg
    | append v =>
      rcases insert_vals f (.int f.vals.length) v (by simp) with h | ⟨v', i, _, hg, _, h3⟩
      · simp only [step, append, h]; exact hw
      · simp only [step, append, h3]; exact hins i v' hg
    | setCurrKey k =>
      rcases setCurrKey_vals f k with ⟨h, _⟩ | ⟨p, v, _, hv, h, _⟩
      · simp only [step, h]; exact hw
      · simp only [step, h]
        intro w hw'
        rcases List.mem_cons.mp hw' with rfl | h'
        · exact hw _ (List.mem_of_getElem? hv)
        · exact hw w (List.mem_of_mem_eraseIdx h')
    | setCurrObj v =>
      rcases setCurrObj_shape f v with ⟨h1, _⟩ | ⟨l, h1, h2, h3⟩
      · simp only [step, h1]; exact hw
      · simp only [step, h1]
        intro w hw'
        rcases List.mem_cons.mp hw' with rfl | h'
        · by_contra hb
          exact h ⟨w, rfl, hb, h3⟩
        · exact hw w (h2 w h')

/-- No ill-typed current value was assigned. -/
def NoneIllTyped : State → List Op → Prop
  | _, [] => True
  | f, op :: ops => ¬ op.IllTyped f ∧ NoneIllTyped (step f op).1 ops

/-- **C48**: after every history of calls, unless an ill-typed value was made current by assignment, all values have the field's
type. -/
theorem field_well_typed (ops : List Op) (h : NoneIllTyped init ops) : WellTyped (run init ops) := by
  have : ∀ (f : State), WellTyped f → NoneIllTyped f ops → WellTyped (run f ops) := by
    clear h
    induction ops with
    | nil => intro f hu _; exact hu
    | cons op ops ih =>
      intro f hu hn
      exact ih _ ((well_typed_step_iff f op hu).mpr hn.1) hn.2
  exact this init (by simp [WellTyped, init]) h

example : NoneIllTyped init [.setCurrObj ⟨1, "a", false, .good, 10⟩, .setitem (.str "b") (.raw 2 .bad 20),
    .insert (.source "a") ⟨3, "a", false, .floatable, 1⟩] := by
  refine ⟨?_, ?_, ?_, trivial⟩
  · rintro ⟨v, h, hb, _⟩; cases h; simp at hb
  · rintro ⟨v, h, _⟩; cases h
  · rintro ⟨v, h, _⟩; cases h

/-! ## C49 -/

theorem idx_zero_insert (l : List Val) (v : Val) : (Py.insert l (0 : Int) v)[0]? = some v := by
  simp [Py.insert, Py.insertPos]

theorem insertAt_notes (f : State) (i : Int) (v : Val) :
    (insertAt f i v).1.notes = f.notes ∨
    (insertAt f i v).1.notes = f.notes ++ [(current (insertAt f i v).1, current f)] := by
  unfold insertAt
  by_cases h : i = 0
  · right
    subst h
    simp [notify, current, idx_zero_insert]
  · left
    simp [h]

theorem insert_notes (f : State) (k : Key) (v : Val) :
    (insert f k v).1.notes = f.notes ∨
    (insert f k v).1.notes = f.notes ++ [(current (insert f k v).1, current f)] := by
  unfold insert
  cases hc : conv f v (insertCheck k) with
  | error e => left; rfl
  | ok r =>
    obtain ⟨f1, v'⟩ := r
    obtain ⟨h1, h2, _⟩ := conv_ok hc
    have hcur : current f = current f1 := by simp [current, h1]
    have hat := fun i => insertAt_notes f1 i v'
    rw [← h2, hcur]
    cases k with
    | int i => exact hat i
    | source s =>
      simp only
      cases find f1.vals (.source s) with
      | error e => left; rfl
      | ok p => exact hat p
    | str s =>
      simp only
      cases find f1.vals (.str s) with
      | error e => left; rfl
      | ok p => exact hat p
    | derived n =>
      simp only
      cases find f1.vals (.derived n) with
      | error e => left; rfl
      | ok p => exact hat p

theorem replaceAt_quiet (f : State) (p : Nat) (v : Val) : (replaceAt f p false v).1.notes = f.notes := by
  unfold replaceAt
  split
  · rfl
  · split
    · rfl
    · rename_i f1 v' hc
      exact (conv_ok hc).2.1

theorem replaceAt_empty (f : State) (p : Nat) (z : Bool) (v : Val) (h : f.vals = []) : (replaceAt f p z v).1.notes = f.notes := by
  unfold replaceAt
  simp [h]

theorem setByKey_empty (f : State) (k : Key) (inp : In) (h : f.vals = []) : (setByKey f k inp).1.notes = f.notes := by
  unfold setByKey
  split
  · exact replaceAt_empty f _ _ _ h
  · unfold appendNew
    split
    · rfl
    · rename_i f1 v' hc
      exact (conv_ok hc).2.1

/-- What the calls outside of `NotifySafe` tell: nothing, or old and new exchanged. -/
theorem unsafe_notes (f : State) (op : Op) (hs : ¬ op.NotifySafe f) :
    (step f op).1.notes = f.notes ∨ (step f op).1.notes = f.notes ++ [(current (step f op).1, current f)] := by
  cases op with
  | setCurrKey k => exact absurd trivial hs
  | setCurrObj v => exact absurd trivial hs
  | insert k v => exact insert_notes f k v
  | append v => exact insert_notes f _ v
  | delitem k =>
    cases k with
    | int i =>
      have hi : ¬ 0 ≤ i := hs
      left
      simp only [step, delitem]
      split
      · rfl
      · simp only [Key.isZero, show ¬ i = 0 by omega, decide_false, Bool.false_eq_true, if_false]
    | _ => exact absurd trivial hs
  | setitem k inp =>
    left
    cases k with
    | int i =>
      have hi : ¬ 0 ≤ i := hs
      simp only [step, setitem]
      split
      · rfl
      · simp only [show ¬ i = 0 by omega, decide_false]
        exact replaceAt_quiet f _ _
    | source s =>
      have : f.vals = [] := by by_contra h; exact hs h
      exact setByKey_empty f _ inp this
    | str s =>
      have : f.vals = [] := by by_contra h; exact hs h
      exact setByKey_empty f _ inp this
    | derived n =>
      have : f.vals = [] := by by_contra h; exact hs h
      exact setByKey_empty f _ inp this

/-- **C49**, every call on every field: the observers are told of a change of the current value (old value first) exactly for
selecting, for replacing or deleting by source or non-negative index and for setting in a field that has values; a change by
any other call is told to nobody, or with old and new exchanged. -/
theorem change_told_iff (f : State) (op : Op) :
    Notifies f op ↔ op.NotifySafe f ∨ current (step f op).1 = current f := by
  constructor
  · intro h
    by_contra hc
    push Not at hc
    obtain ⟨hs, hch⟩ := hc
    obtain ⟨ns, h1, h2⟩ := h hch
    rcases unsafe_notes f op hs with h3 | h3
    · rw [h3] at h1
      have : ns = [] := by simpa using h1
      subst this
      simp at h2
    · rw [h3] at h1
      have : ns = [(current (step f op).1, current f)] := by simpa using h1.symm
      subst this
      simp only [List.getLast?_singleton, Option.some.injEq, Prod.mk.injEq] at h2
      exact hch h2.1
  · rintro (hs | he)
    · exact current_change_notifies f op hs
    · exact fun h => absurd he h

/-- **C17**, choosing the current value by a key: if the field has it, it comes first and the others keep their order;
if not, TypeError (whatever the lookup itself raises), and nothing changes. -/
theorem setCurrKey_exact (f : State) (k : Key) :
    (∀ v, getitem f k = .ok v → ∃ a b, f.vals = a ++ v :: b ∧ (setCurrKey f k).1.vals = v :: (a ++ b) ∧
      (setCurrKey f k).2 = .ok ()) ∧
    ((∀ v, getitem f k ≠ .ok v) → setCurrKey f k = (f, .error .typeError)) := by
  unfold getitem setCurrKey
  cases hf : find f.vals k with
  | error e => exact ⟨by simp, by simp⟩
  | ok p =>
    cases hp : f.vals[p]? with
    | none => exact ⟨by simp [hp], by simp [hp]⟩
    | some v =>
      refine ⟨fun w hw => ?_, fun h => (h v (by simp [hp])).elim⟩
      have : v = w := by simpa [hp] using hw
      subst this
      obtain ⟨hlt, he⟩ := List.getElem?_eq_some_iff.mp hp
      refine ⟨f.vals.take p, f.vals.drop (p + 1), ?_, ?_, by simp [hp]⟩
      · rw [← he, List.getElem_cons_drop, List.take_append_drop]
      · simp [hp, notify, List.eraseIdx_eq_take_drop_succ]

end Verif.Field
