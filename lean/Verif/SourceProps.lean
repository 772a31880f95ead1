import Verif.Source
import Mathlib.Data.List.Nodup

/-!
# Properties of sources (C21)
-/

namespace Verif.Source

/-- The invariant: identities and names of live sources are distinct. -/
structure Inv (st : State) : Prop where
  ids : (st.objs.map Obj.id).Nodup
  strs : (st.objs.map Obj.str).Nodup
  fresh : ∀ o ∈ st.objs, o.id < st.next

theorem map_ads (objs : List Obj) (i : Nat) (a : Option Str) :
    (objs.map (fun p => if p.id = i then { p with ads := a } else p)).map Obj.id = objs.map Obj.id ∧
    (objs.map (fun p => if p.id = i then { p with ads := a } else p)).map Obj.str = objs.map Obj.str := by
  constructor <;> rw [List.map_map] <;> apply List.map_congr_left <;> intro o _ <;> dsimp <;> split <;> rfl

theorem mem_map_ads {objs : List Obj} {i : Nat} {a : Option Str} {o : Obj}
    (h : o ∈ objs.map (fun p => if p.id = i then { p with ads := a } else p)) :
    ∃ p ∈ objs, p.id = o.id ∧ p.str = o.str := by
  obtain ⟨p, hp, rfl⟩ := List.mem_map.mp h
  refine ⟨p, hp, ?_⟩
  split <;> simp

theorem inv_intern {st : State} (hi : Inv st) (str : Str) (ads : Option Str) (dep : Bool) : Inv (intern st str ads dep).1 := by
  unfold intern
  split
  · split
    · refine ⟨?_, ?_, ?_⟩
      · simp only [(map_ads _ _ _).1]; exact hi.ids
      · simp only [(map_ads _ _ _).2]; exact hi.strs
      · intro o ho
        obtain ⟨p, hp, h1, _⟩ := mem_map_ads ho
        have := hi.fresh p hp
        simp only at this ⊢
        omega
    · exact ⟨hi.ids, hi.strs, fun o ho => Nat.lt_succ_of_lt (hi.fresh o ho)⟩
  · rename_i hnone
    refine ⟨?_, ?_, ?_⟩
    · simp only [List.map_cons, List.nodup_cons]
      refine ⟨?_, hi.ids⟩
      intro h
      obtain ⟨o, ho, he⟩ := List.mem_map.mp h
      have := hi.fresh o ho
      omega
    · simp only [List.map_cons, List.nodup_cons]
      refine ⟨?_, hi.strs⟩
      intro h
      obtain ⟨o, ho, he⟩ := List.mem_map.mp h
      have := List.find?_eq_none.mp hnone o ho
      simp [he] at this
    · intro o ho
      rcases List.mem_cons.mp ho with rfl | ho
      · exact Nat.lt_succ_self _
      · exact Nat.lt_succ_of_lt (hi.fresh o ho)

theorem inv_step (find : Str → Option Str) {st : State} (hi : Inv st) (op : Op) : Inv (step find st op) := by
  cases op with
  | create s b =>
    simp only [step, create]
    split
    · exact hi
    · exact inv_intern hi _ _ _
  | dependent =>
    simp only [step, createDependent]
    have h' : Inv { st with deps := st.deps + 1 } := ⟨hi.ids, hi.strs, hi.fresh⟩
    exact inv_intern h' _ _ _
  | collect i =>
    simp only [step, collect]
    exact ⟨hi.ids.sublist (List.filter_sublist.map _), hi.strs.sublist (List.filter_sublist.map _),
      fun o ho => hi.fresh o (List.mem_filter.mp ho).1⟩
  | setBib i v =>
    simp only [step, setBib]
    split
    · exact hi
    · refine ⟨?_, ?_, ?_⟩
      · simp only [(map_ads _ _ _).1]; exact hi.ids
      · simp only [(map_ads _ _ _).2]; exact hi.strs
      · intro o ho
        obtain ⟨p, hp, h1, _⟩ := mem_map_ads ho
        have := hi.fresh p hp
        simp only at this ⊢
        omega

theorem inv_run (find : Str → Option Str) (ops : List Op) : ∀ st, Inv st → Inv (run find st ops) := by
  induction ops with
  | nil => intro st h; exact h
  | cons op ops ih => intro st h; exact ih _ (inv_step find h op)

theorem inv_init : Inv init := ⟨by simp [init], by simp [init], by simp [init]⟩

/-- Live objects of a state after a history: they were live before, under the same name, or are new. -/
theorem run_names (find : Str → Option Str) (ops : List Op) : ∀ st, Inv st → ∀ o ∈ (run find st ops).objs,
    o.id < st.next → ∃ p ∈ st.objs, p.id = o.id ∧ p.str = o.str := by
  have hint : ∀ st str ads dep, ∀ o ∈ (intern st str ads dep).1.objs, o.id < st.next →
      ∃ p ∈ st.objs, p.id = o.id ∧ p.str = o.str := by
    intro st str ads dep o ho hlt
    unfold intern at ho
    split at ho
    · split at ho
      · exact mem_map_ads ho
      · exact ⟨o, ho, rfl, rfl⟩
    · rcases List.mem_cons.mp ho with rfl | ho
      · simp at hlt
      · exact ⟨o, ho, rfl, rfl⟩
  have hstep : ∀ st op, ∀ o ∈ (step find st op).objs, o.id < st.next → ∃ p ∈ st.objs, p.id = o.id ∧ p.str = o.str := by
    intro st op o ho hlt
    cases op with
    | create s b =>
      simp only [step, create] at ho
      split at ho
      · exact ⟨o, ho, rfl, rfl⟩
      · exact hint _ _ _ _ o ho hlt
    | dependent =>
      simp only [step, createDependent] at ho
      exact hint { st with deps := st.deps + 1 } _ _ _ o ho hlt
    | collect i => exact ⟨o, (List.mem_filter.mp ho).1, rfl, rfl⟩
    | setBib i v =>
      simp only [step, setBib] at ho
      split at ho
      · exact ⟨o, ho, rfl, rfl⟩
      · exact mem_map_ads ho
  have hnext : ∀ st op, st.next ≤ (step find st op).next := by
    have hin : ∀ st str ads dep, st.next ≤ (intern st str ads dep).1.next := by
      intro st str ads dep
      unfold intern
      split
      · split <;> simp
      · simp
    intro st op
    cases op with
    | create s b =>
      simp only [step, create]
      split
      · exact Nat.le_refl _
      · exact hin _ _ _ _
    | dependent => exact hin { st with deps := st.deps + 1 } _ _ _
    | collect i => exact Nat.le_refl _
    | setBib i v => simp only [step, setBib]; split <;> exact Nat.le_refl _
  induction ops with
  | nil => intro st _ o ho _; exact ⟨o, ho, rfl, rfl⟩
  | cons op ops ih =>
    intro st hi o ho hlt
    obtain ⟨p, hp, h1, h2⟩ := ih (step find st op) (inv_step find hi op) o ho (Nat.lt_of_lt_of_le hlt (hnext st op))
    obtain ⟨q, hq, h3, h4⟩ := hstep st op p hp (by rw [h1]; exact hlt)
    exact ⟨q, hq, h3.trans h1, h4.trans h2⟩

/-- What `create` returns. -/
theorem create_spec (find : Str → Option Str) {st st1 : State} (hi : Inv st) {s : Str} {b : Option Str} {i : Nat}
    (h : create find st s b = (st1, some i)) :
    i < st1.next ∧ ∃ nm a, parse find s b = some (nm, a) ∧ (∃ o ∈ st1.objs, o.id = i ∧ o.str = nm) ∧
      (∀ o ∈ st.objs, o.str = nm → o.id = i) ∧ (∀ o ∈ st.objs, o.id = i → o.str = nm) := by
  have hinv : Inv st1 := by
    have := inv_step find hi (.create s b)
    simp only [step, h] at this
    exact this
  unfold create at h
  cases hp : parse find s b with
  | none => rw [hp] at h; simp at h
  | some na =>
    obtain ⟨nm, a⟩ := na
    rw [hp] at h
    simp only [Prod.mk.injEq, Option.some.injEq] at h
    obtain ⟨h1, h2⟩ := h
    subst h1
    unfold intern at h2 hinv ⊢
    cases hf : st.objs.find? (fun o => o.str = nm) with
    | none =>
      rw [hf] at h2
      dsimp only at h2 ⊢
      subst h2
      refine ⟨Nat.lt_succ_self _, nm, a, rfl, ⟨_, List.mem_cons_self, rfl, rfl⟩, ?_, ?_⟩
      · intro o ho hs
        have := List.find?_eq_none.mp hf o ho
        simp [hs] at this
      · intro o ho hid
        have := hi.fresh o ho
        omega
    | some o =>
      have ho := List.mem_of_find?_eq_some hf
      have hs := List.find?_some hf
      simp only [decide_eq_true_eq] at hs
      rw [hf] at h2
      have huniq : ∀ p ∈ st.objs, p.str = nm → p.id = o.id := by
        intro p hp hps
        rw [List.inj_on_of_nodup_map hi.strs hp ho (hps.trans hs.symm)]
      have hid : ∀ p ∈ st.objs, p.id = o.id → p.str = nm := by
        intro p hp hpi
        rw [List.inj_on_of_nodup_map hi.ids hp ho hpi]; exact hs
      have hlt := hi.fresh o ho
      dsimp only at h2 ⊢
      split
      · rename_i hc
        rw [if_pos hc] at h2
        dsimp only at h2
        subst h2
        refine ⟨Nat.lt_succ_of_lt hlt, nm, a, rfl, ⟨{ o with ads := a }, ?_, rfl, hs⟩, huniq, hid⟩
        exact List.mem_map.mpr ⟨o, ho, by simp⟩
      · rename_i hc
        rw [if_neg hc] at h2
        dsimp only at h2
        subst h2
        exact ⟨Nat.lt_succ_of_lt hlt, nm, a, rfl, ⟨o, ho, rfl, hs⟩, huniq, hid⟩

/-- **C21**: two sources created at any two moments, the first still alive at the second (nothing is assumed about what
happens in between or before), are the same object exactly if they have the same name. -/
theorem one_object_per_name (find : Str → Option Str) (ops ops' : List Op) (s s' : Str) (b b' : Option Str)
    (st1 st3 : State) (i j : Nat)
    (h1 : create find (run find init ops) s b = (st1, some i))
    (halive : i ∈ (run find st1 ops').objs.map Obj.id)
    (h2 : create find (run find st1 ops') s' b' = (st3, some j)) :
    i = j ↔ (parse find s b).map Prod.fst = (parse find s' b').map Prod.fst := by
  have hi0 := inv_run find ops init inv_init
  have hi1 : Inv st1 := by
    have := inv_step find hi0 (.create s b)
    simp only [step, h1] at this
    exact this
  have hi2 := inv_run find ops' st1 hi1
  obtain ⟨hlt, nm, a, hp, ⟨o, ho, hoi, hos⟩, _, _⟩ := create_spec find hi0 h1
  obtain ⟨_, nm', a', hp', ⟨o', ho', hoi', hos'⟩, hall, hid⟩ := create_spec find hi2 h2
  obtain ⟨q, hq, hqi⟩ := List.mem_map.mp halive
  obtain ⟨p, hpm, hpi, hps⟩ := run_names find ops' st1 hi1 q hq (by rw [hqi]; exact hlt)
  have hpo : p = o := List.inj_on_of_nodup_map hi1.ids hpm ho (by rw [hpi, hqi, hoi])
  have hqs : q.str = nm := by rw [← hps, hpo]; exact hos
  rw [hp, hp']
  simp only [Option.map_some, Option.some.injEq]
  constructor
  · rintro rfl
    rw [← hqs]; exact hid q hq hqi
  · rintro rfl
    rw [← hqi]; exact hall q hq hqs

/-- The singleton invariant itself. -/
theorem live_sources_distinct (find : Str → Option Str) (ops : List Op) :
    ((run find init ops).objs.map Obj.str).Nodup := (inv_run find ops init inv_init).strs

/-! ## Pickling -/

theorem split_ne_nil (s : Str) : split s ≠ [] := by
  cases s with
  | nil => simp [split]
  | cons c s =>
    unfold split
    split
    · simp
    · split <;> simp

theorem split_append (a b : Str) : split (a ++ '/' :: b) = split a ++ split b := by
  induction a with
  | nil => simp [split]
  | cons c a ih =>
    by_cases hc : c = '/'
    · simp [split, hc, ih]
    · simp only [List.cons_append, split, hc, if_false, ih]
      cases hs : split a with
      | nil => exact absurd hs (split_ne_nil a)
      | cons p ps => simp

theorem split_noslash (a : Str) (h : '/' ∉ a) : split a = [a] := by
  induction a with
  | nil => rfl
  | cons c a ih =>
    simp only [List.mem_cons, not_or] at h
    have hc : c ≠ '/' := fun e => h.1 e.symm
    simp [split, hc, ih h.2]

theorem join_split (a : Str) : join (split a) = a := by
  induction a with
  | nil => rfl
  | cons c a ih =>
    by_cases hc : c = '/'
    · subst hc
      simp only [split, if_true]
      cases hs : split a with
      | nil => exact absurd hs (split_ne_nil a)
      | cons p ps => rw [hs] at ih; simp [join, ih]
    · simp only [split, hc, if_false]
      cases hs : split a with
      | nil => exact absurd hs (split_ne_nil a)
      | cons p ps =>
        rw [hs] at ih
        cases ps with
        | nil => simp [join] at ih ⊢; exact ih
        | cons q ps => simp only [join, List.cons_append] at ih ⊢; rw [ih]

/-- **C21**, pickling: re-creating a source from its pickled form gives a source of the same name and code, if the name
has no blanks at its ends, the code is a plain one (no '/', no blanks at its ends), and a source without code has no
'/' in its name.
Missing: the other sources, for which it is false (below). -/
theorem reduce_roundtrip_partial (find : Str → Option Str) (o : Obj)
    (hstr : strip o.str = o.str) (hads : ∀ a, o.ads = some a → '/' ∉ a ∧ strip a = a)
    (hslash : o.ads = none → '/' ∉ o.str) :
    parse find (reduce o) none = some (o.str, o.ads) := by
  unfold reduce
  cases ha : o.ads with
  | none =>
    simp [parse, hslash ha, bibcode]
  | some a =>
    obtain ⟨h1, h2⟩ := hads a ha
    have hsp : split (o.str ++ '/' :: '/' :: a) = (split o.str ++ [[]]) ++ [a] := by
      rw [split_append]
      have : split ('/' :: a) = [[], a] := by simp [split, split_noslash a h1]
      rw [this]; simp
    have hmem : '/' ∈ o.str ++ '/' :: '/' :: a := by simp
    simp only [parse, hmem, and_self, if_true, hsp, List.dropLast_concat, List.getLastD_concat, join_split, hstr, h2]

/-- A source re-created within its life time is the same object. -/
theorem unpickle_is_same_object_partial (find : Str → Option Str) (ops : List Op) (o : Obj)
    (ho : o ∈ (run find init ops).objs)
    (hstr : strip o.str = o.str) (hads : ∀ a, o.ads = some a → '/' ∉ a ∧ strip a = a)
    (hslash : o.ads = none → '/' ∉ o.str) :
    (create find (run find init ops) (reduce o) none).2 = some o.id := by
  have hi := inv_run find ops init inv_init
  have hp := reduce_roundtrip_partial find o hstr hads hslash
  cases hc : (create find (run find init ops) (reduce o) none).2 with
  | none => unfold create at hc; rw [hp] at hc; simp at hc
  | some i =>
    have he : create find (run find init ops) (reduce o) none
        = ((create find (run find init ops) (reduce o) none).1, some i) := by rw [← hc]
    obtain ⟨_, nm, a, hp', _, hall, _⟩ := create_spec find hi he
    rw [hp] at hp'
    simp only [Option.some.injEq, Prod.mk.injEq] at hp'
    rw [hall o ho hp'.1]

/-- Pickling fails for a name with a slash and no code: it comes back as another source. -/
theorem reduce_slash_fails : parse some (reduce ⟨0, "a/b".toList, none, false⟩) none = some ("a".toList, some "b".toList) := by
  decide

/-- … which is reachable: `Source('a/b','')`. -/
example : (create some init "a/b".toList (some [])).1.objs = [⟨0, "a/b".toList, none, false⟩] := by decide

/-- Pickling fails for a code with a slash (such as a DOI kept because no ADS server is set). -/
theorem reduce_doi_fails :
    (create some init "A 2010".toList (some "10.1/x".toList)).1.objs = [⟨0, "A 2010".toList, some "10.1/x".toList, false⟩] ∧
    parse some (reduce ⟨0, "A 2010".toList, some "10.1/x".toList, false⟩) none
      = some ("A 2010//10.1".toList, some "x".toList) := by decide

/-- Not every derived value gets a dependent source: if the user has a source called 'dependent1', the first derived value is
given that one. -/
theorem dependent_name_clash :
    let st := (create some init "dependent1".toList none).1
    createDependent st = ({ st with next := 2, deps := 1 }, 0) ∧ st.objs = [⟨0, "dependent1".toList, none, false⟩] := by
  decide

/-- Non-trivial instance: creation, re-creation with another code, collection of another source. -/
example : let st1 := (create some init "Smith 2001/x1".toList none).1
    let st2 := run some st1 [.create "Jones".toList none, .dependent, .collect 1]
    st2.objs.map Obj.id = [2, 0] ∧ (create some st2 " Smith 2001 //2001x".toList none).2 = some 0 ∧
    (create some st2 "Smith".toList none).2 = some 3 := by decide

end Verif.Source
