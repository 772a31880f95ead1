import Verif.StructNode
import Verif.FieldNodeProps
import Mathlib.Data.List.Nodup

/-!
# C133, C134: nodes of a class with declared fields
-/

namespace Verif.StructNode

open Verif.FieldNode (Str readOnly upd_same upd_other)

/-! ## Specification -/

/-- A class definition: names distinct, and assignable. -/
structure Class (cls : List Decl) : Prop where
  distinct : (cls.map (·.name)).Nodup
  assignable : ∀ c ∈ cls, readOnly c.name = false

/-- The node has exactly the fields the class declares, in the order of the class. -/
def Conforms (cls : List Decl) (s : Node) : Prop :=
  s.names = cls.map (·.name) ∧ ∀ c ∈ cls, ∃ f, s.attr c.name = .fld f

/-- The node lists distinct names, each a field it holds. -/
def Sound (s : Node) : Prop := s.names.Nodup ∧ ∀ nm ∈ s.names, ∃ f, s.attr nm = .fld f

/-- Is the call a `revert`? -/
def isRevert : Op → Bool
  | .revert => true
  | _ => false

/-- Is the call an `addField` or a `delField`? -/
def isChange : Op → Bool
  | .add _ _ => true
  | .del _ => true
  | _ => false

/-- Was a field added or removed (or was that tried) after the last `revert`? -/
def changed : List Op → Bool
  | [] => false
  | op :: ops => changed ops || (isChange op && !(ops.any isRevert))

theorem find_some {cls : List Decl} {nm : Str} {c : Decl} (h : find cls nm = some c) : c ∈ cls ∧ c.name = nm := by
  have h1 := List.mem_of_find?_eq_some h
  have h2 := List.find?_some h
  exact ⟨h1, by simpa using h2⟩

theorem find_mem {cls : List Decl} (hc : Class cls) {c : Decl} (h : c ∈ cls) : find cls c.name = some c := by
  cases hf : find cls c.name with
  | none =>
    have := List.find?_eq_none.mp hf c h
    simp at this
  | some d =>
    obtain ⟨h1, h2⟩ := find_some hf
    congr 1
    exact List.inj_on_of_nodup_map hc.distinct h1 h h2

theorem find_none {cls : List Decl} {nm : Str} : find cls nm = none ↔ nm ∉ cls.map (·.name) := by
  unfold find
  rw [List.find?_eq_none]
  simp

/-! ## New nodes -/

/-- **C133**: a new node has exactly the declared fields; the current value of each is the derived value if one is declared,
else the default if there is one, else the field is empty; the description is that of the class. -/
theorem new_exact {cls : List Decl} (hc : Class cls) :
    Conforms cls (create cls) ∧ (create cls).altered = false ∧
    ∀ c ∈ cls, ∃ f, (create cls).attr c.name = .fld f ∧ f.info = c.info ∧
      (∀ d, c.der = some d → f.vals.head? = some (derVal d)) ∧
      (∀ v, c.der = none → c.dflt = some v → f.vals = [⟨"None", v, none⟩]) ∧
      (c.der = none → c.dflt = none → f.vals = []) := by
  have key : ∀ c ∈ cls, (create cls).attr c.name = .fld ⟨initVals c, c.info⟩ := by
    intro c h
    simp [create, find_mem hc h]
  refine ⟨⟨rfl, fun c h => ⟨_, key c h⟩⟩, rfl, fun c h => ⟨_, key c h, rfl, ?_, ?_, ?_⟩⟩
  · intro d hd; simp [initVals, hd]
  · intro v hd hv; simp [initVals, hd, hv]
  · intro hd hv; simp [initVals, hd, hv]

/-! ## `alteredstruct` -/

/-- One call and the flag. -/
theorem altered_step (cls : List Decl) (s : Node) (op : Op) : (step cls s op).1.altered = (match op with
    | .add _ _ => true
    | .del _ => true
    | .edit _ _ => s.altered
    | .revert => false) := by
  cases op with
  | add nm vals =>
    simp only [step, addField]
    split_ifs <;> rfl
  | del nm =>
    simp only [step, delField]
    split_ifs <;> rfl
  | edit nm g =>
    simp only [step, edit]
    split_ifs
    · split <;> rfl
    · rfl
  | revert => rfl

theorem altered_run (cls : List Decl) : ∀ (ops : List Op) (s : Node),
    (run cls s ops).altered = (changed ops || (s.altered && !(ops.any isRevert))) := by
  intro ops
  induction ops with
  | nil => intro s; simp [run, changed]
  | cons op ops ih =>
    intro s
    show (run cls (step cls s op).1 ops).altered = _
    rw [ih, altered_step]
    cases op <;> simp only [changed, isChange, isRevert, List.any_cons] <;> cases changed ops <;> cases s.altered <;>
      cases ops.any isRevert <;> rfl

/-- **C133**: `alteredstruct` is true exactly if since the last `revert` (or since the node was made) `addField` or
`delField` was called, successfully or not. -/
theorem altered_exact (cls : List Decl) (ops : List Op) : (run cls (create cls) ops).altered = changed ops := by
  rw [altered_run]
  simp [create]

theorem sound_step {cls : List Decl} (hc : Class cls) {s : Node} (h : Sound s) (op : Op) : Sound (step cls s op).1 := by
  obtain ⟨h1, h2⟩ := h
  cases op with
  | add nm vals =>
    simp only [step, addField]
    split_ifs with a b
    · exact ⟨h1, h2⟩
    · exact ⟨h1, h2⟩
    · refine ⟨?_, ?_⟩
      · refine List.nodup_append.mpr ⟨h1, by simp, ?_⟩
        intro x hx y hy he
        rw [List.mem_singleton] at hy
        exact a (hy ▸ he ▸ hx)
      · intro x hx
        by_cases hxn : x = nm
        · subst hxn; exact ⟨_, upd_same ..⟩
        · rcases List.mem_append.mp hx with hx | hx
          · obtain ⟨f, hf⟩ := h2 x hx
            exact ⟨f, (upd_other hxn).trans hf⟩
          · exact absurd (List.mem_singleton.mp hx) hxn
  | del nm =>
    simp only [step, delField]
    split_ifs with a
    · refine ⟨h1.erase nm, fun x hx => ?_⟩
      obtain ⟨p, q⟩ := h1.mem_erase_iff.mp hx
      obtain ⟨f, hf⟩ := h2 x q
      exact ⟨f, (upd_other p).trans hf⟩
    · refine ⟨h1.erase nm, fun x hx => ?_⟩
      obtain ⟨p, q⟩ := h1.mem_erase_iff.mp hx
      obtain ⟨f, hf⟩ := h2 x q
      exact ⟨f, (upd_other p).trans hf⟩
    · exact ⟨h1, h2⟩
  | edit nm g =>
    simp only [step, edit]
    split_ifs with a
    · split
      · refine ⟨h1, fun x hx => ?_⟩
        by_cases hxn : x = nm
        · subst hxn; exact ⟨_, upd_same ..⟩
        · obtain ⟨f, hf⟩ := h2 x hx
          exact ⟨f, (upd_other hxn).trans hf⟩
      · exact ⟨h1, h2⟩
    · exact ⟨h1, h2⟩
  | revert =>
    refine ⟨hc.distinct, fun x hx => ?_⟩
    obtain ⟨c, hcm, rfl⟩ := List.mem_map.mp hx
    exact ⟨_, by simp [step, revert, find_mem hc hcm]; rfl⟩

theorem conforms_step {cls : List Decl} (hc : Class cls) {s : Node} (h : s.altered = false → Conforms cls s) (op : Op) :
    (step cls s op).1.altered = false → Conforms cls (step cls s op).1 := by
  intro ha
  rw [altered_step] at ha
  cases op with
  | add nm vals => cases ha
  | del nm => cases ha
  | edit nm g =>
    obtain ⟨h1, h2⟩ := h ha
    simp only [step, edit]
    split_ifs
    · split
      · refine ⟨h1, fun c hcm => ?_⟩
        by_cases hx : c.name = nm
        · subst hx; exact ⟨_, upd_same ..⟩
        · obtain ⟨f, hf⟩ := h2 c hcm
          exact ⟨f, (upd_other hx).trans hf⟩
      · exact ⟨h1, h2⟩
    · exact ⟨h1, h2⟩
  | revert =>
    exact ⟨rfl, fun c hcm => ⟨_, by simp [step, revert, find_mem hc hcm]; rfl⟩⟩

/-- **C133**: after every history the node lists distinct names of fields it holds, and as long as `alteredstruct` is false
they are exactly the class's. -/
theorem unaltered_conforms {cls : List Decl} (hc : Class cls) (ops : List Op) :
    Sound (run cls (create cls) ops) ∧ ((run cls (create cls) ops).altered = false → Conforms cls (run cls (create cls) ops)) := by
  have key : ∀ (ops : List Op) (s : Node), Sound s → (s.altered = false → Conforms cls s) →
      Sound (run cls s ops) ∧ ((run cls s ops).altered = false → Conforms cls (run cls s ops)) := by
    intro ops
    induction ops with
    | nil => exact fun s h1 h2 => ⟨h1, h2⟩
    | cons op ops ih => exact fun s h1 h2 => ih _ (sound_step hc h1 op) (conforms_step hc h2 op)
  have hn := (new_exact hc).1
  refine key ops _ ⟨hc.distinct, fun nm hnm => ?_⟩ (fun _ => hn)
  obtain ⟨c, hcm, rfl⟩ := List.mem_map.mp hnm
  exact hn.2 c hcm

/-! ## `revert` -/

/-- **C133**: whatever was done before, `revert` leaves a node with the names and values of a new one: every value stored in a
declared field is lost too, not only the fields that had been deleted; and the descriptions are gone. -/
theorem revert_exact {cls : List Decl} (hc : Class cls) (ops : List Op) :
    Conforms cls (revert cls (run cls (create cls) ops)) ∧
    (revert cls (run cls (create cls) ops)).altered = false ∧
    (∀ c ∈ cls, (revert cls (run cls (create cls) ops)).attr c.name = .fld ⟨initVals c, none⟩) ∧
    (∀ nm f, nm ∉ cls.map (·.name) → (revert cls (run cls (create cls) ops)).attr nm ≠ .fld f) := by
  have key : ∀ c ∈ cls, (revert cls (run cls (create cls) ops)).attr c.name = .fld ⟨initVals c, none⟩ := by
    intro c h
    simp [revert, find_mem hc h]
  refine ⟨⟨rfl, fun c h => ⟨_, key c h⟩⟩, rfl, key, ?_⟩
  intro nm f hnm
  simp only [revert, find_none.mpr hnm]
  split <;> simp_all

/-! ## Pickling -/

/-- The derived values in a field are at most the class's, once. -/
def OwnDerived (c : Option Nat) (l : List SV) : Prop :=
  match c with
  | none => ∀ v ∈ l, v.der = none
  | some d => ∃ a b, l = a ++ derVal d :: b ∧ (∀ v ∈ a, v.der = none) ∧ ∀ v ∈ b, v.der = none

theorem filter_plain {l : List SV} (h : ∀ v ∈ l, v.der = none) : l.filter (fun v => v.der.isNone) = l :=
  List.filter_eq_self.mpr (fun v hv => by simp [h v hv])

theorem lastIdx_plain {d : Nat} : ∀ {l : List SV}, (∀ v ∈ l, v.der = none) → lastIdx d l = none
  | [], _ => rfl
  | v :: l, h => by
    have ih : lastIdx d l = none := lastIdx_plain (fun w hw => h w (List.mem_cons_of_mem _ hw))
    simp [lastIdx, ih, h v (by simp)]

theorem lastIdx_own {d : Nat} {b : List SV} (hb : ∀ v ∈ b, v.der = none) : ∀ {a : List SV}, (∀ v ∈ a, v.der = none) →
    lastIdx d (a ++ derVal d :: b) = some a.length
  | [], _ => by simp [lastIdx, lastIdx_plain hb, derVal]
  | v :: a, h => by
    have ih : lastIdx d (a ++ derVal d :: b) = some a.length := lastIdx_own hb (fun w hw => h w (List.mem_cons_of_mem _ hw))
    simp [lastIdx, ih]

/-- What loading makes of one field. -/
def back (f : Fld) : Option Nat → Fld
  | none => pruned f
  | some d => reinsert (lastIdx d f.vals) d (pruned f)

theorem field_back {c : Option Nat} {f : Fld} (h : OwnDerived c f.vals) : back f c = f := by
  cases c with
  | none => exact congrArg (fun l => { f with vals := l }) (filter_plain h)
  | some d =>
    obtain ⟨a, b, e, ha, hb⟩ := h
    have e1 : (pruned f).vals = a ++ b := by
      simp only [pruned, e, List.filter_append, List.filter_cons, filter_plain ha, filter_plain hb]
      simp [derVal]
    have e2 : lastIdx d f.vals = some a.length := by rw [e]; exact lastIdx_own hb ha
    cases f with
    | mk vals info =>
      simp only at e e1 e2
      simp only [back, reinsert, e1, e2, Option.getD_some, List.length_append]
      subst e
      simp [pruned]

/-- **C134**: a node saved and read back has the same names, the same flag, and the same values in the same order in every
field in which the derived values are the class's own, if the check does not interfere. -/
theorem pickle_roundtrip {cls : List Decl} {s : Node} (hs : Sound s)
    (hd : ∀ nm ∈ s.names, ∀ f, s.attr nm = .fld f → OwnDerived ((find cls nm).bind (·.der)) f.vals) :
    (restored cls (save cls s)).names = s.names ∧ (restored cls (save cls s)).altered = s.altered ∧
    (∀ nm ∈ s.names, (restored cls (save cls s)).attr nm = s.attr nm) ∧
    (∀ nm, nm ∉ s.names → (restored cls (save cls s)).attr nm = .absent) := by
  refine ⟨rfl, rfl, fun nm hnm => ?_, fun nm hnm => by simp [restored, save, hnm]⟩
  obtain ⟨f, hf⟩ := hs.2 nm hnm
  have h := field_back (hd nm hnm f hf)
  rw [hf]
  simp only [restored, save, hnm, if_true, hf]
  cases hc : find cls nm with
  | none =>
    simp only [hc, Option.bind_none, back] at h
    simp only [h]
  | some c =>
    simp only [hc, Option.bind_some] at h
    cases hcd : c.der with
    | none =>
      simp only [hcd, back] at h
      simp only [h, hcd]
    | some d =>
      simp only [hcd, back] at h
      simp only [h, hcd]

/-- **C134**: in any field, loading keeps exactly the values that are not derived, in order, and puts the class's derived
value among them, whether or not the saved field had it. -/
theorem loaded_values (cls : List Decl) {s : Node} (nm : Str) (hnm : nm ∈ s.names) (f : Fld) (hf : s.attr nm = .fld f) :
    ∃ f', (restored cls (save cls s)).attr nm = .fld f' ∧
      f'.vals.filter (fun v => v.der.isNone) = f.vals.filter (fun v => v.der.isNone) ∧
      f'.vals.filter (fun v => v.der.isSome) = (((find cls nm).bind (·.der)).map derVal).toList := by
  have hp : (pruned f).vals.filter (fun v => v.der.isNone) = f.vals.filter (fun v => v.der.isNone) := by
    simp [pruned]
  have hq : (pruned f).vals.filter (fun v => v.der.isSome) = [] := by
    rw [List.filter_eq_nil_iff]
    intro v hv
    have := (List.mem_filter.mp hv).2
    simp only [Option.isNone_iff_eq_none] at this
    simp [this]
  simp only [restored, save, hnm, if_true, hf]
  cases hc : find cls nm with
  | none => exact ⟨_, rfl, hp, by simpa using hq⟩
  | some c =>
    cases hcd : c.der with
    | none => exact ⟨_, by simp only [hcd], hp, by simpa [hcd] using hq⟩
    | some d =>
      refine ⟨reinsert (lastIdx d f.vals) d (pruned f), by simp only [hcd], ?_, ?_⟩
      · simp only [reinsert, List.filter_append, List.filter_cons, derVal, Option.isNone_some, Bool.false_eq_true, if_false]
        rw [← List.filter_append, List.take_append_drop]
        exact hp
      · simp only [reinsert, List.filter_append, List.filter_cons, derVal, Option.isSome_some, if_true]
        have ht : ∀ l, l ⊆ (pruned f).vals → l.filter (fun v => v.der.isSome) = [] := by
          intro l hl
          rw [List.filter_eq_nil_iff]
          intro v hv
          have := (List.filter_eq_nil_iff.mp hq) v (hl hv)
          exact this
        rw [ht _ (List.take_subset _ _), ht _ (List.drop_subset _ _)]
        simp [hcd, derVal]

theorem lastIdx_none (d : Nat) (l : List SV) (h : ∀ v ∈ l, v.der ≠ some d) : lastIdx d l = none := by
  induction l with
  | nil => rfl
  | cons v l ih =>
    simp only [lastIdx, ih (fun w hw => h w (List.mem_cons_of_mem _ hw)), if_neg (h v List.mem_cons_self)]

theorem lastIdx_append (d : Nat) (a b : List SV) (v : SV) (hv : v.der = some d) (hb : ∀ w ∈ b, w.der ≠ some d) :
    lastIdx d (a ++ v :: b) = some a.length := by
  induction a with
  | nil => simp [lastIdx, lastIdx_none d b hb, hv]
  | cons x a ih => simp [lastIdx, ih]

/-- **C134**: where it is put: as many of the kept values before it as there were values (kept or not) before the last derived value of the
class in the saved field; first if the saved field had none. -/
theorem loaded_position (cls : List Decl) {s : Node} (nm : Str) (hnm : nm ∈ s.names) (f : Fld) (hf : s.attr nm = .fld f) (c : Decl)
    (hc : find cls nm = some c) (d : Nat) (hd : c.der = some d) :
    (∀ a v b, f.vals = a ++ v :: b → v.der = some d → (∀ w ∈ b, w.der ≠ some d) → ∃ f', (restored cls (save cls s)).attr nm = .fld f' ∧
      f'.vals = (f.vals.filter (fun v => v.der.isNone)).take a.length ++ derVal d ::
        (f.vals.filter (fun v => v.der.isNone)).drop a.length) ∧
    ((∀ v ∈ f.vals, v.der ≠ some d) → ∃ f', (restored cls (save cls s)).attr nm = .fld f' ∧
      f'.vals = derVal d :: f.vals.filter (fun v => v.der.isNone)) := by
  have hr : (restored cls (save cls s)).attr nm = .fld (reinsert (lastIdx d f.vals) d (pruned f)) := by
    simp only [restored, save, hnm, if_true, hf, hc, hd]
  have hmin : ∀ (l : List SV) (n : Nat), l.take (min n l.length) = l.take n ∧ l.drop (min n l.length) = l.drop n := by
    intro l n
    rcases Nat.le_total n l.length with h | h
    · rw [Nat.min_eq_left h]; exact ⟨rfl, rfl⟩
    · rw [Nat.min_eq_right h, List.take_length, List.drop_length, List.take_of_length_le h, List.drop_eq_nil_of_le h]; exact ⟨rfl, rfl⟩
  constructor
  · intro a v b he hv hb
    refine ⟨_, hr, ?_⟩
    have hl : lastIdx d f.vals = some a.length := by rw [he]; exact lastIdx_append d a b v hv hb
    simp only [reinsert, hl, Option.getD_some, (hmin _ _).1, (hmin _ _).2]
    simp [pruned]
  · intro hn
    refine ⟨_, hr, ?_⟩
    simp [reinsert, lastIdx_none d f.vals hn, pruned]

/-- **C134**: the check on loading finds exactly the nodes whose names are not those of the class. -/
theorem inconsistent_iff {cls : List Decl} {s : Node} (hs : Sound s) :
    inconsistent cls (restored cls (save cls s)) = true ↔ ¬ ∀ nm, nm ∈ s.names ↔ nm ∈ cls.map (·.name) := by
  have hat : ∀ nm, (∃ f, (restored cls (save cls s)).attr nm = .fld f) ↔ nm ∈ s.names := by
    intro nm
    constructor
    · rintro ⟨f, hf⟩
      by_contra hc
      simp [restored, save, hc] at hf
    · intro hnm
      obtain ⟨f, hf⟩ := hs.2 nm hnm
      obtain ⟨f', h, _⟩ := loaded_values cls nm hnm f hf
      exact ⟨f', h⟩
  have hA : ∀ a : Attr, noField a = true ↔ ¬ ∃ f, a = .fld f := by
    intro a; cases a <;> simp [noField]
  unfold inconsistent
  rw [Bool.or_eq_true, List.any_eq_true, List.any_eq_true]
  constructor
  · rintro (⟨c, hc, h⟩ | ⟨nm, hnm, h⟩) hall
    · rw [hA, hat] at h
      exact h ((hall c.name).mpr (List.mem_map.mpr ⟨c, hc, rfl⟩))
    · rw [Option.isNone_iff_eq_none, find_none] at h
      exact h ((hall nm).mp hnm)
  · intro h
    by_contra hc
    apply h
    intro nm
    constructor
    · intro hnm
      by_contra hx
      exact hc (.inr ⟨nm, hnm, by rw [Option.isNone_iff_eq_none, find_none]; exact hx⟩)
    · intro hnm
      obtain ⟨c, hcm, rfl⟩ := List.mem_map.mp hnm
      by_contra hx
      exact hc (.inl ⟨c, hcm, by rw [hA, hat]; exact hx⟩)

/-- **C134**: what `load` does: an inconsistent node is refused ('raise'), loses all its values ('revert') or is accepted; a
consistent one is what was saved. The flag `alteredstruct` plays no part. -/
theorem load_exact {cls : List Decl} {s : Node} (hs : Sound s) (check : Check) :
    ((∀ nm, nm ∈ s.names ↔ nm ∈ cls.map (·.name)) → load cls check (save cls s) = .ok (restored cls (save cls s))) ∧
    ((¬ ∀ nm, nm ∈ s.names ↔ nm ∈ cls.map (·.name)) →
      load cls .raise (save cls s) = .error .value ∧
      load cls .revert (save cls s) = .ok (revert cls (restored cls (save cls s))) ∧
      load cls .warn (save cls s) = .ok (restored cls (save cls s)) ∧
      load cls .off (save cls s) = .ok (restored cls (save cls s))) := by
  refine ⟨fun h => ?_, fun h => ?_⟩
  · have : inconsistent cls (restored cls (save cls s)) = false := by
      rw [← Bool.not_eq_true, inconsistent_iff hs, not_not]; exact h
    simp [load, this]
  · have : inconsistent cls (restored cls (save cls s)) = true := (inconsistent_iff hs).mpr h
    simp [load, this]

/-! ## Examples and counterexamples -/

/-- Two fields: `a` with default 0 and a description, `b` derived. -/
def demoCls : List Decl := [⟨"a".toList, some 0, none, some "size"⟩, ⟨"b".toList, none, some 7, none⟩]

theorem demo_class : Class demoCls := ⟨by decide, by decide +kernel⟩

/-- A measured value is stored; then a field is added, and `revert` called. -/
def stored : Node := run demoCls (create demoCls) [.edit "a".toList (fun l => ⟨"survey", 5, none⟩ :: l)]

/-- `revert` loses a value nobody asked it to remove. -/
theorem revert_loses_values :
    stored.attr "a".toList = .fld ⟨[⟨"survey", 5, none⟩, ⟨"None", 0, none⟩], some "size"⟩ ∧ stored.altered = false ∧
    (revert demoCls stored).attr "a".toList = .fld ⟨[⟨"None", 0, none⟩], none⟩ := by decide +kernel

/-- A call that fails marks the node as altered. -/
theorem failed_call_alters :
    (addField (create demoCls) "a".toList []).2 = .error .value ∧ (addField (create demoCls) "a".toList []).1.altered = true := by
  decide +kernel

/-- A derived value that was removed is back after loading, as the current value. -/
theorem removed_derived_returns :
    let s := run demoCls (create demoCls) [.edit "b".toList (fun _ => [⟨"survey", 5, none⟩])]
    s.attr "b".toList = .fld ⟨[⟨"survey", 5, none⟩], none⟩ ∧
    (restored demoCls (save demoCls s)).attr "b".toList = .fld ⟨[derVal 7, ⟨"survey", 5, none⟩], none⟩ := by decide +kernel

/-- With `checkonload='revert'`, adding a field on purpose makes the next load drop all values. -/
theorem altered_loses_values :
    let s := run demoCls stored [.add "c".toList []]
    s.altered = true ∧ load demoCls .revert (save demoCls s) = .ok (revert demoCls (restored demoCls (save demoCls s))) ∧
    (revert demoCls (restored demoCls (save demoCls s))).attr "a".toList = .fld ⟨[⟨"None", 0, none⟩], none⟩ := by
  refine ⟨by decide +kernel, ?_, by decide +kernel⟩
  have hs : Sound (run demoCls (create demoCls)
      ([.edit "a".toList (fun l => ⟨"survey", 5, none⟩ :: l)] ++ [.add "c".toList []])) := (unaltered_conforms demo_class _).1
  refine ((load_exact (cls := demoCls) hs .revert).2 ?_).2.1
  intro h
  exact absurd ((h "c".toList).mp (by decide +kernel)) (by decide +kernel)

example : (restored demoCls (save demoCls stored)).attr "b".toList = .fld ⟨[derVal 7], none⟩ := by
  have hs : Sound stored := (unaltered_conforms demo_class [.edit "a".toList (fun l => ⟨"survey", 5, none⟩ :: l)]).1
  have h : ∀ nm ∈ stored.names, ∀ f, stored.attr nm = .fld f → OwnDerived ((find demoCls nm).bind (·.der)) f.vals := by
    intro nm hnm f hf
    have : nm = "a".toList ∨ nm = "b".toList := by
      have e : stored.names = ["a".toList, "b".toList] := by decide +kernel
      rw [e] at hnm; simpa using hnm
    rcases this with rfl | rfl
    · have e : stored.attr "a".toList = .fld ⟨[⟨"survey", 5, none⟩, ⟨"None", 0, none⟩], some "size"⟩ := by decide +kernel
      rw [e] at hf; cases hf
      have : (find demoCls "a".toList).bind (·.der) = none := by decide +kernel
      rw [this]
      intro v hv
      rcases List.mem_cons.mp hv with rfl | hv
      · rfl
      · rw [List.mem_singleton.mp hv]
    · have e : stored.attr "b".toList = .fld ⟨[derVal 7], none⟩ := by decide +kernel
      rw [e] at hf; cases hf
      have : (find demoCls "b".toList).bind (·.der) = some 7 := by decide +kernel
      rw [this]
      exact ⟨[], [], rfl, by simp, by simp⟩
  rw [(pickle_roundtrip hs h).2.2.1 "b".toList (by decide +kernel)]
  decide +kernel

end Verif.StructNode
