import Verif.FieldNode
import Verif.FieldExact
import Mathlib.Tactic.SplitIfs

/-!
# C131: the fields of a node
-/

namespace Verif.FieldNode

open Verif
open Verif.Field (Val State)

/-! ## Specification -/

/-- What a user sees of a node: the names are distinct, and each is the attribute by which the node holds a field of that
name that belongs to this node and no other. -/
structure Sound (h : Heap) (n : Nat) : Prop where
  distinct : (h.names n).Nodup
  held : ∀ nm ∈ h.names n, ∃ f, h.attr n nm = .fld f ∧ h.fname f = nm ∧ h.owner f = some n
  exists_ : ∀ nm ∈ h.names n, ∀ f, h.attr n nm = .fld f → f < h.nfields
  assignable : ∀ nm ∈ h.names n, readOnly nm = false

/-- The field a node holds under a listed name. -/
def FieldOf (h : Heap) (n : Nat) (nm : Str) (f : Nat) : Prop := nm ∈ h.names n ∧ h.attr n nm = .fld f

/-- Every node is sound, and objects not made yet have no owner. -/
structure Good (h : Heap) : Prop where
  sound : ∀ n, Sound h n
  fresh : ∀ f, h.nfields ≤ f → h.owner f = none

/-! ## Frames -/

theorem upd_same {α β : Type} [DecidableEq α] (g : α → β) (a : α) (b : β) : upd g a b a = b := by simp [upd]

theorem upd_other {α β : Type} [DecidableEq α] {g : α → β} {a x : α} {b : β} (h : x ≠ a) : upd g a b x = g x := by
  simp [upd, h]

/-- Heaps with the same nodes, whatever is in the fields. -/
def SameNodes (h h' : Heap) : Prop :=
  h'.nfields = h.nfields ∧ h'.fname = h.fname ∧ h'.owner = h.owner ∧ h'.names = h.names ∧ h'.attr = h.attr

theorem SameNodes.good {h h' : Heap} (s : SameNodes h h') (g : Good h) : Good h' := by
  obtain ⟨e1, e2, e3, e4, e5⟩ := s
  refine ⟨fun n => ⟨?_, ?_, ?_, ?_⟩, ?_⟩
  · rw [e4]; exact (g.sound n).distinct
  · rw [e4, e5, e2, e3]; exact (g.sound n).held
  · rw [e4, e5, e1]; exact (g.sound n).exists_
  · rw [e4]; exact (g.sound n).assignable
  · rw [e1, e3]; exact g.fresh

theorem SameNodes.refl (h : Heap) : SameNodes h h := ⟨rfl, rfl, rfl, rfl, rfl⟩

theorem SameNodes.trans {a b c : Heap} (x : SameNodes a b) (y : SameNodes b c) : SameNodes a c :=
  ⟨y.1.trans x.1, y.2.1.trans x.2.1, y.2.2.1.trans x.2.2.1, y.2.2.2.1.trans x.2.2.2.1, y.2.2.2.2.trans x.2.2.2.2⟩

theorem setItem_same (h : Heap) (n : Nat) (k : Key) (a : Asg) : SameNodes h (setItem h n k a).1 := by
  unfold setItem
  split
  · exact .refl h
  · split
    · exact ⟨rfl, rfl, rfl, rfl, rfl⟩
    · exact .refl h

theorem srcLoop_same (k : Verif.Field.Key) (strict : Bool) (n : Nat) :
    ∀ (l : List Str) (h : Heap), SameNodes h (srcLoop k strict n l h).1 := by
  intro l
  induction l with
  | nil => exact fun h => .refl h
  | cons nm l ih =>
    intro h
    unfold srcLoop
    split
    · split_ifs
      · exact SameNodes.trans (b := { h with field := upd h.field _ _ }) ⟨rfl, rfl, rfl, rfl, rfl⟩ (ih _)
      · exact .refl h
      · exact ih h
    · exact .refl h

/-! ## The invariant -/

theorem good_empty : Good empty := by
  refine ⟨fun n => ⟨List.nodup_nil, ?_, ?_, ?_⟩, fun _ _ => rfl⟩ <;> intro nm hm <;> cases hm

theorem good_newField {h : Heap} (g : Good h) (nm : Str) : Good (newField h nm) := by
  refine ⟨fun n => ⟨(g.sound n).distinct, ?_, ?_, (g.sound n).assignable⟩, ?_⟩
  · intro x hx
    obtain ⟨f, h1, h2, h3⟩ := (g.sound n).held x hx
    refine ⟨f, h1, ?_, h3⟩
    have : f ≠ h.nfields := Nat.ne_of_lt ((g.sound n).exists_ x hx f h1)
    simpa [newField, upd, this] using h2
  · intro x hx f hf
    exact Nat.lt_succ_of_lt ((g.sound n).exists_ x hx f hf)
  · intro f hf
    exact g.fresh f (Nat.le_of_succ_le hf)

theorem good_addField {h : Heap} (g : Good h) (n f : Nat) (hf : f < h.nfields) : Good (addField h n f).1 := by
  unfold addField
  simp only
  split_ifs with h1 h2
  · exact g
  · exact g
  · -- the attribute of an unlisted name changes
    have key : Good { h with attr := upd h.attr n (upd (h.attr n) (h.fname f) (.fld f)) } := by
      have hat : ∀ m x, x ∈ h.names m →
          upd h.attr n (upd (h.attr n) (h.fname f) (.fld f)) m x = h.attr m x := by
        intro m x hx
        by_cases hm : m = n
        · subst hm
          rw [upd_same, upd_other]
          rintro rfl
          exact h1 hx
        · rw [upd_other hm]
      refine ⟨fun m => ⟨(g.sound m).distinct, ?_, ?_, (g.sound m).assignable⟩, g.fresh⟩
      · intro x hx
        obtain ⟨f', a, b, c⟩ := (g.sound m).held x hx
        exact ⟨f', (hat m x hx).trans a, b, c⟩
      · intro x hx f' hf'
        exact (g.sound m).exists_ x hx f' ((hat m x hx).symm.trans hf')
    cases ho : h.owner f with
    | some o => exact key
    | none =>
      refine ⟨fun m => ?_, ?_⟩
      · have s := key.sound m
        have hown : ∀ f', (∃ m', h.owner f' = some m') → f' ≠ f := by
          rintro f' ⟨m', hm'⟩ rfl
          rw [ho] at hm'; cases hm'
        by_cases hm : m = n
        · subst hm
          refine ⟨?_, ?_, ?_, ?_⟩
          · simp only [upd_same]
            refine List.nodup_append.mpr ⟨(g.sound m).distinct, by simp, ?_⟩
            intro x hx y hy he
            rw [List.mem_singleton] at hy
            exact h1 (hy ▸ he ▸ hx)
          · intro x hx
            simp only [upd_same, List.mem_append, List.mem_singleton] at hx
            rcases hx with hx | rfl
            · obtain ⟨f', a, b, c⟩ := s.held x hx
              refine ⟨f', a, b, ?_⟩
              show upd h.owner f (some m) f' = some m
              rw [upd_other (hown f' ⟨m, c⟩)]; exact c
            · exact ⟨f, by simp [upd], rfl, by simp [upd]⟩
          · intro x hx f' hf'
            simp only [upd_same, List.mem_append, List.mem_singleton] at hx
            rcases hx with hx | rfl
            · exact s.exists_ x hx f' hf'
            · simp only [upd_same, Attr.fld.injEq] at hf'
              exact hf' ▸ hf
          · intro x hx
            simp only [upd_same, List.mem_append, List.mem_singleton] at hx
            rcases hx with hx | rfl
            · exact s.assignable x hx
            · simpa using h2
        · have e : upd h.names n (h.names n ++ [h.fname f]) m = h.names m := upd_other hm
          refine ⟨by simp only [e]; exact s.distinct, ?_, ?_, ?_⟩
          · intro x hx
            simp only [e] at hx
            obtain ⟨f', a, b, c⟩ := s.held x hx
            refine ⟨f', a, b, ?_⟩
            show upd h.owner f (some n) f' = some m
            rw [upd_other (hown f' ⟨m, c⟩)]; exact c
          · intro x hx f' hf'
            simp only [e] at hx
            exact s.exists_ x hx f' hf'
          · intro x hx
            simp only [e] at hx
            exact s.assignable x hx
      · intro f' hf'
        show upd h.owner f (some n) f' = none
        rw [upd_other (Nat.ne_of_gt (Nat.lt_of_lt_of_le hf hf'))]
        exact g.fresh f' hf'

theorem good_delField (cls : Str → Bool) {h : Heap} (g : Good h) (n : Nat) (nm : Str) :
    Good (delField cls h n nm).1 := by
  unfold delField
  by_cases h1 : nm ∈ h.names n
  · simp only [h1, if_true]
    refine ⟨fun m => ?_, g.fresh⟩
    by_cases hm : m = n
    · subst hm
      have hne : ∀ x ∈ (h.names m).erase nm, x ≠ nm ∧ x ∈ h.names m := fun x hx =>
        (g.sound m).distinct.mem_erase_iff.mp hx
      refine ⟨?_, ?_, ?_, ?_⟩
      · simp only [upd_same]; exact (g.sound m).distinct.erase nm
      · intro x hx
        simp only [upd_same] at hx ⊢
        obtain ⟨a, b⟩ := hne x hx
        rw [upd_other a]
        exact (g.sound m).held x b
      · intro x hx f hf
        simp only [upd_same] at hx hf
        obtain ⟨a, b⟩ := hne x hx
        rw [upd_other a] at hf
        exact (g.sound m).exists_ x b f hf
      · intro x hx
        simp only [upd_same] at hx
        exact (g.sound m).assignable x (hne x hx).2
    · refine ⟨?_, ?_, ?_, ?_⟩ <;> simp only [upd_other hm]
      · exact (g.sound m).distinct
      · exact (g.sound m).held
      · exact (g.sound m).exists_
      · exact (g.sound m).assignable
  · simpa only [h1, if_false] using g

theorem good_step (cls : Str → Bool) {h : Heap} (g : Good h) (op : Op) : Good (step cls h op).1 := by
  cases op with
  | newField nm => exact good_newField g nm
  | addField n f =>
    simp only [step]
    split_ifs with hf
    · exact good_addField g n f hf
    · exact g
  | addName n nm => exact good_addField (good_newField g nm) n h.nfields (Nat.lt_succ_self _)
  | delField n nm => exact good_delField cls g n nm
  | setItem n k a => exact (setItem_same h n k a).good g
  | setToSource n k strict => exact (srcLoop_same k strict n (h.names n) h).good g
  | onField f op => exact SameNodes.good (h := h) ⟨rfl, rfl, rfl, rfl, rfl⟩ g

theorem good_run (cls : Str → Bool) : ∀ (ops : List Op) {h : Heap}, Good h → Good (run cls h ops)
  | [], _, g => g
  | op :: ops, _, g => good_run cls ops (good_step cls g op)

/-- **C131**: after every history of calls on nodes and fields, also failed ones, every node lists distinct names, each
the name of a field it holds and that belongs to it; no field is held by two nodes or twice by one. -/
theorem nodes_sound (cls : Str → Bool) (ops : List Op) :
    (∀ n, Sound (run cls empty ops) n) ∧
    ∀ n m a b f, FieldOf (run cls empty ops) n a f → FieldOf (run cls empty ops) m b f → n = m ∧ a = b := by
  have g := good_run cls ops good_empty
  refine ⟨g.sound, ?_⟩
  rintro n m a b f ⟨h1, h2⟩ ⟨h3, h4⟩
  obtain ⟨f1, e1, e2, e3⟩ := (g.sound n).held a h1
  obtain ⟨f2, e4, e5, e6⟩ := (g.sound m).held b h3
  rw [h2] at e1; rw [h4] at e4
  cases e1; cases e4
  rw [e3] at e6
  exact ⟨by cases e6; rfl, e2.symm.trans e5⟩

/-! ## Adding and removing -/

/-- **C131**: adding succeeds exactly if the name is new and assignable and the field is in no node; then it comes last.
Otherwise the fields listed stay the same. -/
theorem add_exact (h : Heap) (n f : Nat) :
    ((addField h n f).2 = .ok () ↔ h.fname f ∉ h.names n ∧ readOnly (h.fname f) = false ∧ h.owner f = none) ∧
    ((addField h n f).2 = .ok () → (addField h n f).1.names n = h.names n ++ [h.fname f] ∧
      FieldOf (addField h n f).1 n (h.fname f) f ∧ (addField h n f).1.owner f = some n) ∧
    ((addField h n f).2 ≠ .ok () → (addField h n f).1.names = h.names ∧ (addField h n f).1.owner = h.owner) ∧
    (∀ m, m ≠ n → (addField h n f).1.names m = h.names m ∧ (addField h n f).1.attr m = h.attr m) ∧
    (addField h n f).1.field = h.field := by
  unfold addField FieldOf
  simp only
  split_ifs with h1 h2
  · simp [h1]
  · simp [h2]
  · cases ho : h.owner f with
    | some o =>
      refine ⟨by simp, by simp, fun _ => ⟨rfl, rfl⟩, fun m hm => ⟨rfl, upd_other hm⟩, rfl⟩
    | none =>
      refine ⟨by simpa [h1] using h2, fun _ => ⟨upd_same .., ⟨by simp [upd], by simp [upd]⟩, upd_same ..⟩, by simp,
        fun m hm => ⟨upd_other hm, upd_other hm⟩, rfl⟩

/-- **C131**: removing takes exactly that name out of the list; an unknown name is a KeyError. -/
theorem del_fields_exact (cls : Str → Bool) (h : Heap) (n : Nat) (nm : Str) :
    (nm ∉ h.names n → delField cls h n nm = (h, .error .key)) ∧
    (nm ∈ h.names n → (delField cls h n nm).2 = .ok () ∧
      (delField cls h n nm).1.names n = (h.names n).erase nm ∧
      (∀ f, (delField cls h n nm).1.attr n nm ≠ .fld f) ∧
      (∀ m, m ≠ n → (delField cls h n nm).1.names m = h.names m) ∧
      (delField cls h n nm).1.field = h.field) := by
  unfold delField
  refine ⟨fun h1 => by simp [h1], fun h1 => ?_⟩
  simp only [h1, if_true]
  refine ⟨trivial, upd_same .., fun f => ?_, fun m hm => upd_other hm, trivial⟩
  rw [upd_same, upd_same]
  split_ifs <;> simp

/-! A field once added can never be added again -/

theorem owner_step (cls : Str → Bool) (h : Heap) (op : Op) {f n : Nat} (ho : h.owner f = some n) :
    (step cls h op).1.owner f = some n := by
  have hadd : ∀ (h : Heap) m f', h.owner f = some n → (addField h m f').1.owner f = some n := by
    intro h m f' ho
    unfold addField
    simp only
    split_ifs
    · exact ho
    · exact ho
    · cases ho' : h.owner f' with
      | some _ => exact ho
      | none =>
        show upd h.owner f' (some m) f = some n
        rw [upd_other]
        · exact ho
        · rintro rfl
          rw [ho] at ho'; cases ho'
  cases op with
  | newField nm => exact ho
  | addField m f' =>
    simp only [step]
    split_ifs
    · exact hadd h m f' ho
    · exact ho
  | addName m nm => exact hadd (newField h nm) m _ ho
  | delField m nm =>
    simp only [step, delField]
    split_ifs <;> exact ho
  | setItem m k a => rw [show step cls h (.setItem m k a) = setItem h m k a from rfl, (setItem_same h m k a).2.2.1, ho]
  | setToSource m k strict =>
    rw [show step cls h (.setToSource m k strict) = srcLoop k strict m (h.names m) h from rfl,
      (srcLoop_same k strict m _ h).2.2.1, ho]
  | onField f' op => exact ho

/-- **C131**, limit: a field that was ever in a node belongs to it for ever; removing it does not set it free, so it can
never be put into that node again nor into another. -/
theorem added_once (cls : Str → Bool) (ops ops' : List Op) (n m f : Nat) (ho : (run cls empty ops).owner f = some n) :
    (addField (run cls (run cls empty ops) ops') m f).2 ≠ .ok () := by
  have key : ∀ (ops : List Op) (h : Heap), Good h → h.owner f = some n → (run cls h ops).owner f = some n := by
    intro ops
    induction ops with
    | nil => exact fun _ _ ho => ho
    | cons op ops ih => exact fun h g ho => ih _ (good_step cls g op) (owner_step cls h op ho)
  have := key ops' _ (good_run cls ops good_empty) ho
  rw [ne_eq, (add_exact _ m f).1, this]
  simp

/-- The refused call still changes the node: its attribute is now the other node's field, although it lists no such
field. -/
theorem refused_add_leaks : let h := run (fun _ => false) empty [.addName 0 "a".toList]
    (addField h 1 0).2 = .error .value ∧ (addField h 1 0).1.attr 1 "a".toList = .fld 0 ∧
      (addField h 1 0).1.names 1 = [] := by
  decide +kernel

/-! ## Reading and writing -/

theorem get_names {h : Heap} {n : Nat} (s : Sound h n) {nm : Str} (hm : nm ∈ h.names n) :
    ∃ f, FieldOf h n nm f ∧ getItem h n (.name nm) = .ok (.value, Verif.Field.current (h.field f)) := by
  obtain ⟨f, a, b, c⟩ := s.held nm hm
  exact ⟨f, ⟨hm, a⟩, by simp [getItem, resolve, hm, a]⟩

/-- **C131**: `node[i]` is the value of the `i`-th name, counted from the end if negative; beyond the ends IndexError. -/
theorem by_position {h : Heap} {n : Nat} (s : Sound h n) (i : Int) :
    (∀ nm, Py.get? (h.names n) i = some nm → getItem h n (.int i) = getItem h n (.name nm)) ∧
    (Py.get? (h.names n) i = none → getItem h n (.int i) = .error .index) := by
  refine ⟨fun nm e => ?_, fun e => by simp [getItem, resolve, e]⟩
  have hm : nm ∈ h.names n := by
    unfold Py.get? at e
    obtain ⟨k, _, hk⟩ := Option.bind_eq_some_iff.mp e
    exact List.mem_of_getElem? hk
  simp [getItem, resolve, e, hm]

theorem get_ofNat {α : Type} (l : List α) (i : Nat) : Py.get? l (i : Int) = l[i]? := by
  unfold Py.get? Py.idx
  by_cases h : i < l.length
  · have : (i : Int) < l.length := by omega
    simp [this]
  · have : ¬ (i : Int) < l.length := by omega
    simp [this, List.getElem?_eq_none (Nat.le_of_not_lt h)]

/-- **C131**: iterating over a node gives the current value of each field in the order of the names (`None` for empty
fields), as `values` does. -/
theorem iterate_exact {h : Heap} {n : Nat} (s : Sound h n) (fuel : Nat) (hf : (h.names n).length < fuel) :
    iterate h n fuel 0 = (values h n).map (fun v => (What.value, v)) := by
  have key : ∀ fuel i, (h.names n).length - i < fuel →
      iterate h n fuel i = ((values h n).drop i).map (fun v => (What.value, v)) := by
    intro fuel
    induction fuel with
    | zero => intro i hi; omega
    | succ fuel ih =>
      intro i hi
      by_cases hlt : i < (h.names n).length
      · have e : Py.get? (h.names n) (i : Int) = some (h.names n)[i] := by
          rw [get_ofNat, List.getElem?_eq_getElem hlt]
        have hm : (h.names n)[i] ∈ h.names n := List.getElem_mem hlt
        obtain ⟨f, ⟨_, ha⟩, hg⟩ := get_names s hm
        have hl : i < (values h n).length := by simpa [values] using hlt
        rw [iterate, (by_position s i).1 _ e, hg]
        simp only
        rw [ih (i + 1) (by omega), List.drop_eq_getElem_cons hl, List.map_cons]
        congr 2
        simp [values, ha]
      · have e : Py.get? (h.names n) (i : Int) = none := by
          rw [get_ofNat, List.getElem?_eq_none (Nat.le_of_not_lt hlt)]
        rw [iterate, (by_position s i).2 e]
        simp only
        rw [List.drop_eq_nil_of_le (by simpa [values] using Nat.le_of_not_lt hlt)]
        rfl
  simpa using key fuel 0 (by omega)

theorem setCurr_obj {s : State} {v : Val} (h : (setCurr s (.obj v)).2 = .ok ()) :
    Verif.Field.current (setCurr s (.obj v)).1 = some v := by
  unfold setCurr Verif.Field.setCurrObj at *
  cases hc : Verif.Field.conv s v .off with
  | error e => simp [hc] at h
  | ok p =>
    obtain ⟨f1, v'⟩ := p
    have : v' = v := by
      unfold Verif.Field.conv at hc
      simp only [Verif.Field.srcOk, Verif.Field.tyOk, Verif.Field.coerce, Bool.true_eq_false, if_false] at hc
      split_ifs at hc
      · simp only [Except.ok.injEq, Prod.mk.injEq] at hc; exact hc.2.symm
      · simp only [Except.ok.injEq, Prod.mk.injEq] at hc; exact hc.2.symm
    subst this
    simp [Verif.Field.current, hc]

/-- **C131**: `node[key] = (source, value)` makes that the current value of the field meant, which `node[key]` and (unless
another field is called so) `node[name+'_src']` then show; no other field of any node changes, nor do the names. -/
theorem set_get {h : Heap} {n : Nat} (s : Sound h n) (nm : Str) (v : Val) (hm : nm ∈ h.names n)
    (hok : (setItem h n (.name nm) (.obj v)).2 = .ok ()) :
    getItem (setItem h n (.name nm) (.obj v)).1 n (.name nm) = .ok (.value, some v) ∧
    (nm ++ "_src".toList ∉ h.names n →
      getItem (setItem h n (.name nm) (.obj v)).1 n (.name (nm ++ "_src".toList)) = .ok (.source, some v)) ∧
    (nm ++ "_err".toList ∉ h.names n →
      getItem (setItem h n (.name nm) (.obj v)).1 n (.name (nm ++ "_err".toList)) = .ok (.errors, some v)) := by
  obtain ⟨f, ha, hb, hc⟩ := s.held nm hm
  have e : setItem h n (.name nm) (.obj v) = ({ h with field := upd h.field f (setCurr (h.field f) (.obj v)).1 },
      wrapExc (setCurr (h.field f) (.obj v)).2) := by simp [setItem, target, hm, ha]
  rw [e] at hok ⊢
  have hok' : (setCurr (h.field f) (.obj v)).2 = .ok () := by
    rcases hr : (setCurr (h.field f) (.obj v)).2 with e | u
    · rw [hr] at hok; cases hok
    · rfl
  have hcur := setCurr_obj hok'
  have hcut : ∀ suf : Str, suf.length = 4 → cut suf (nm ++ suf) = some nm := by
    intro suf hs
    simp [cut, hs]
  refine ⟨by simp [getItem, resolve, hm, ha, upd_same, hcur], fun hs => ?_, fun hs => ?_⟩
  · simp only [getItem, resolve, hs, if_false, hcut "_src".toList rfl, ha, upd_same, hcur]
  · have : cut "_src".toList (nm ++ "_err".toList) = none := by
      unfold cut
      rw [if_neg]
      intro hx
      rw [List.isSuffixOf_iff_suffix] at hx
      obtain ⟨t, ht⟩ := hx
      have := List.append_inj_right' ht rfl
      exact absurd this (by decide)
    simp only [getItem, resolve, hs, if_false, this, hcut "_err".toList rfl, ha, upd_same, hcur]

/-- **C131**: an assignment to an item touches one field only. -/
theorem set_frame {h : Heap} (g : Good h) (n : Nat) (nm : Str) (a : Asg) (m : Nat) (x : Str)
    (hx : x ∈ h.names m) (hne : m ≠ n ∨ x ≠ nm) :
    getItem (setItem h n (.name nm) a).1 m (.name x) = getItem h m (.name x) := by
  obtain ⟨f, ⟨_, ha⟩, hg⟩ := get_names (g.sound m) hx
  have hs := setItem_same h n (.name nm) a
  have : (setItem h n (.name nm) a).1.field f = h.field f := by
    unfold setItem
    cases ht : target h n (.name nm) with
    | none => rfl
    | some nm' =>
      have hnm : nm' = nm ∧ nm ∈ h.names n := by
        simp only [target] at ht
        split_ifs at ht with hm
        · exact ⟨by simpa using ht.symm, hm⟩
      obtain ⟨rfl, hm⟩ := hnm
      obtain ⟨f', h1, h2, h3⟩ := (g.sound n).held nm' hm
      simp only [h1]
      refine upd_other ?_
      rintro rfl
      obtain ⟨f'', k1, k2, k3⟩ := (g.sound m).held x hx
      rw [ha] at k1; cases k1
      rw [k3] at h3
      rcases hne with hne | hne
      · exact hne (by cases h3; rfl)
      · exact hne (k2.symm.trans h2)
  rw [hg]
  simp only [getItem, resolve, hs.2.2.2.1, hs.2.2.2.2, hx, if_true, ha, this]

/-- **C131**: keys that are no field: IndexError when they are neither a position nor a name with one of the two
suffixes; a suffix on anything that is not a field gives AttributeError instead. -/
theorem unknown_key (h : Heap) (n : Nat) (k : Str) (hk : k ∉ h.names n) :
    (¬ "_src".toList <:+ k → ¬ "_err".toList <:+ k → getItem h n (.name k) = .error .index) ∧
    (∀ b w, (w = What.source ∧ k = b ++ "_src".toList ∨ w = What.errors ∧ k = b ++ "_err".toList) →
      (∀ f, h.attr n b ≠ .fld f) → getItem h n (.name k) = .error .attribute) := by
  have hc : ∀ suf : Str, ¬ suf <:+ k → cut suf k = none := by
    intro suf hs
    rw [cut, if_neg]
    rwa [List.isSuffixOf_iff_suffix]
  refine ⟨fun h1 h2 => by simp only [getItem, resolve, hk, if_false, hc _ h1, hc _ h2], ?_⟩
  rintro b w (⟨rfl, rfl⟩ | ⟨rfl, rfl⟩) hb
  · have : cut "_src".toList (b ++ "_src".toList) = some b := by simp [cut]
    simp only [getItem, resolve, hk, if_false, this]
  · have h1 : cut "_src".toList (b ++ "_err".toList) = none := by
      refine hc _ ?_
      rintro ⟨t, ht⟩
      exact absurd (List.append_inj_right' ht rfl) (by decide)
    have h2 : cut "_err".toList (b ++ "_err".toList) = some b := by simp [cut]
    simp only [getItem, resolve, hk, if_false, h1, h2]

/-! ## One source for all fields -/

theorem srcLoop_spec (k : Verif.Field.Key) (strict : Bool) (n : Nat) :
    ∀ (l : List Str) (h : Heap) (fs : List Nat), l.map (h.attr n) = fs.map .fld → fs.Nodup →
      (∀ f, f ∉ fs → (srcLoop k strict n l h).1.field f = h.field f) ∧
      (((srcLoop k strict n l h).2 = .ok () ↔ strict = false ∨ ∀ f ∈ fs, inField (h.field f) k = true)) ∧
      ((srcLoop k strict n l h).2 = .ok () → ∀ f ∈ fs, (srcLoop k strict n l h).1.field f =
        if inField (h.field f) k then (Verif.Field.setCurrKey (h.field f) k).1 else h.field f) := by
  intro l
  induction l with
  | nil =>
    intro h fs e hn
    have : fs = [] := by simpa using e.symm
    subst this
    exact ⟨fun _ _ => rfl, by simp [srcLoop], by simp⟩
  | cons nm l ih =>
    intro h fs e hn
    cases fs with
    | nil => simp at e
    | cons f fs =>
      simp only [List.map_cons, List.cons.injEq] at e
      obtain ⟨e1, e2⟩ := e
      have hnf := (List.nodup_cons.mp hn).1
      unfold srcLoop
      simp only [e1]
      by_cases hin : inField (h.field f) k = true
      · simp only [hin, if_true]
        obtain ⟨a, b, c⟩ := ih { h with field := upd h.field f (setCurr (h.field f) (.key k)).1 } fs e2
          (List.nodup_cons.mp hn).2
        have hoth : ∀ f' ∈ fs, upd h.field f (setCurr (h.field f) (.key k)).1 f' = h.field f' := fun f' hf' =>
          upd_other (by rintro rfl; exact hnf hf')
        refine ⟨fun f' hf' => ?_, ?_, fun hok => ?_⟩
        · rw [a f' (fun hc => hf' (by simp [hc]))]
          exact upd_other (by rintro rfl; exact hf' (by simp))
        · rw [b]
          constructor
          · rintro (hs | hs)
            · exact .inl hs
            · refine .inr fun f' hf' => ?_
              rcases List.mem_cons.mp hf' with rfl | hf'
              · exact hin
              · have := hs f' hf'
                rwa [show ({ h with field := upd h.field f (setCurr (h.field f) (.key k)).1 } : Heap).field f' = h.field f'
                  from hoth f' hf'] at this
          · rintro (hs | hs)
            · exact .inl hs
            · refine .inr fun f' hf' => ?_
              rw [show ({ h with field := upd h.field f (setCurr (h.field f) (.key k)).1 } : Heap).field f' = h.field f'
                  from hoth f' hf']
              exact hs f' (by simp [hf'])
        · intro f' hf'
          rcases List.mem_cons.mp hf' with rfl | hf'
          · rw [a _ hnf]
            simp [upd_same, hin, setCurr]
          · rw [c hok f' hf', show ({ h with field := upd h.field f (setCurr (h.field f) (.key k)).1 } : Heap).field f' = h.field f'
                  from hoth f' hf']
      · simp only [hin]
        cases strict with
        | true =>
          refine ⟨fun _ _ => rfl, ?_, ?_⟩
          · simp only [Bool.false_eq_true, if_false, if_true, reduceCtorEq, false_iff, not_or]
            refine ⟨by simp, fun hs => ?_⟩
            exact hin (hs f (by simp))
          · intro hok; simp at hok
        | false =>
          simp only [Bool.false_eq_true, if_false]
          obtain ⟨a, b, c⟩ := ih h fs e2 (List.nodup_cons.mp hn).2
          refine ⟨fun f' hf' => a f' (fun hc => hf' (by simp [hc])), ⟨fun _ => by simp, fun _ => b.mpr (.inl rfl)⟩, ?_⟩
          intro hok f' hf'
          rcases List.mem_cons.mp hf' with rfl | hf'
          · rw [a _ hnf, if_neg hin]
          · exact c hok f' hf'

theorem fields_of {h : Heap} (g : Good h) (n : Nat) :
    ∃ fs : List Nat, (h.names n).map (h.attr n) = fs.map .fld ∧ fs.Nodup ∧ ∀ f, f ∈ fs ↔ ∃ nm, FieldOf h n nm f := by
  have key : ∀ l : List Str, l.Nodup → (∀ x ∈ l, x ∈ h.names n) →
      ∃ fs : List Nat, l.map (h.attr n) = fs.map .fld ∧ fs.Nodup ∧ ∀ f, f ∈ fs ↔ ∃ nm ∈ l, h.attr n nm = .fld f := by
    intro l
    induction l with
    | nil => intro _ _; exact ⟨[], rfl, List.nodup_nil, by simp⟩
    | cons x l ih =>
      intro hn hl
      obtain ⟨fs, a, b, c⟩ := ih (List.nodup_cons.mp hn).2 (fun y hy => hl y (by simp [hy]))
      obtain ⟨f, h1, h2, h3⟩ := (g.sound n).held x (hl x (by simp))
      refine ⟨f :: fs, by simp [h1, a], List.nodup_cons.mpr ⟨?_, b⟩, ?_⟩
      · intro hf
        obtain ⟨y, hy, hy'⟩ := (c f).mp hf
        obtain ⟨f', k1, k2, _⟩ := (g.sound n).held y (hl y (by simp [hy]))
        rw [hy'] at k1; cases k1
        exact (List.nodup_cons.mp hn).1 (by rw [← h2, k2]; exact hy)
      · intro f'
        rw [List.mem_cons, c]
        constructor
        · rintro (rfl | ⟨y, hy, hy'⟩)
          · exact ⟨x, by simp, h1⟩
          · exact ⟨y, by simp [hy], hy'⟩
        · rintro ⟨y, hy, hy'⟩
          rcases List.mem_cons.mp hy with rfl | hy
          · rw [h1] at hy'; cases hy'; exact .inl rfl
          · exact .inr ⟨y, hy, hy'⟩
  obtain ⟨fs, a, b, c⟩ := key (h.names n) (g.sound n).distinct (fun _ hx => hx)
  exact ⟨fs, a, b, fun f => (c f).trans ⟨fun ⟨nm, h1, h2⟩ => ⟨nm, h1, h2⟩, fun ⟨nm, h1, h2⟩ => ⟨nm, h1, h2⟩⟩⟩

/-- **C131**: `setToSource` makes the value from that source current in every field of the node that has one, and leaves all
other fields, of this node and of others, alone; with 'raise' it succeeds exactly if all fields have one. -/
theorem setToSource_exact {h : Heap} (g : Good h) (n : Nat) (k : Verif.Field.Key) (strict : Bool) :
    ((setToSource h n k strict).2 = .ok () ↔
      strict = false ∨ ∀ nm f, FieldOf h n nm f → ∃ v, Verif.Field.getitem (h.field f) k = .ok v) ∧
    (∀ f, (∀ nm, ¬ FieldOf h n nm f) → (setToSource h n k strict).1.field f = h.field f) ∧
    ((setToSource h n k strict).2 = .ok () → ∀ nm f, FieldOf h n nm f →
      (∀ v, Verif.Field.getitem (h.field f) k = .ok v →
        getItem (setToSource h n k strict).1 n (.name nm) = .ok (.value, some v)) ∧
      ((∀ v, Verif.Field.getitem (h.field f) k ≠ .ok v) → (setToSource h n k strict).1.field f = h.field f)) := by
  obtain ⟨fs, e1, e2, e3⟩ := fields_of g n
  obtain ⟨a, b, c⟩ := srcLoop_spec k strict n (h.names n) h fs e1 e2
  have hin : ∀ s : State, inField s k = true ↔ ∃ v, Verif.Field.getitem s k = .ok v := by
    intro s
    unfold inField
    cases Verif.Field.getitem s k <;> simp
  refine ⟨?_, ?_, ?_⟩
  · show (srcLoop k strict n (h.names n) h).2 = .ok () ↔ _
    rw [b]
    refine or_congr Iff.rfl ⟨fun hs nm f hf => (hin _).mp (hs f ((e3 f).mpr ⟨nm, hf⟩)), fun hs f hf => ?_⟩
    obtain ⟨nm, hf⟩ := (e3 f).mp hf
    exact (hin _).mpr (hs nm f hf)
  · intro f hf
    exact a f (fun hc => by obtain ⟨nm, hx⟩ := (e3 f).mp hc; exact hf nm hx)
  · intro hok nm f hf
    have hc := c hok f ((e3 f).mpr ⟨nm, hf⟩)
    refine ⟨fun v hv => ?_, fun hv => ?_⟩
    · rw [if_pos ((hin _).mpr ⟨v, hv⟩)] at hc
      obtain ⟨x, y, _, h2, _⟩ := (Verif.Field.setCurrKey_exact (h.field f) k).1 v hv
      have hs := srcLoop_same k strict n (h.names n) h
      unfold setToSource
      simp only [getItem, resolve, hs.2.2.2.1, hs.2.2.2.2, hf.1, if_true, hf.2, hc]
      simp [Verif.Field.current, h2]
    · rw [if_neg] at hc
      · exact hc
      · rw [hin]
        rintro ⟨v, hv'⟩
        exact hv v hv'

/-- A history: two nodes, values set by name, by position and through the field, a source chosen for all. -/
def demo : List Op :=
  [.addName 0 "a".toList, .addName 0 "b".toList, .addName 1 "a".toList, .newField "c".toList, .addField 0 3,
   .addField 1 3, .setItem 0 (.name "a".toList) (.obj ⟨1, "s", false, .good, 10⟩),
   .setItem 0 (.name "a".toList) (.obj ⟨2, "t", false, .good, 11⟩), .setItem 0 (.int (-2)) (.obj ⟨3, "t", false, .good, 12⟩),
   .delField 0 "c".toList, .addField 0 3, .setToSource 0 (.source "s") false]

example : (run (fun _ => false) empty demo).names 0 = ["a".toList, "b".toList] ∧
    getItem (run (fun _ => false) empty demo) 0 (.name "a".toList) = .ok (.value, some ⟨1, "s", false, .good, 10⟩) ∧
    getItem (run (fun _ => false) empty demo) 0 (.name "b_src".toList) = .ok (.source, some ⟨3, "t", false, .good, 12⟩) ∧
    getItem (run (fun _ => false) empty demo) 1 (.int 0) = .ok (.value, none) ∧
    (run (fun _ => false) empty demo).owner 3 = some 0 := by
  decide +kernel

end Verif.FieldNode
