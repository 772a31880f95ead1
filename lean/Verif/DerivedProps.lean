import Verif.Derived
import Mathlib.Data.List.Nodup
import Mathlib.Data.List.Perm.Basic
import Mathlib.Data.List.Perm.Subperm

/-!
# Properties of derived values (C19, C20)

`ValueOf c cells x v` is the specification: starting from the present contents of the fields alone (no caches, no flags),
the field value `x` denotes `v`.  It is a least fixed point, so a value on a dependency cycle denotes nothing.
-/

namespace Verif.Derived

/-- **Specification.** An observed value denotes itself; a derived value denotes its function applied to what the current
values of the fields it links to denote. (`ts` lists, per link: the field, its current value, what that denotes.) -/
inductive ValueOf (c : Config) (cells : Nat → List Cell) : Cell → PV → Prop
  | base (v : PV) : ValueOf c cells (.base v) v
  | derived (d : Nat) (ts : List (Nat × Cell × PV)) (v : PV)
      (hl : (c.links d).map Link.target = ts.map (fun t => some t.1))
      (hc : ∀ t ∈ ts, (cells t.1).head? = some t.2.1)
      (hv : ∀ t ∈ ts, ValueOf c cells t.2.1 t.2.2)
      (hf : c.fn d (ts.map (fun t => t.2.2)) = .ok v) : ValueOf c cells (.derived d) v

/-- `d` is reached by notifications from field `g`: it is registered there, or with the field of a value so reached. -/
inductive Hears (st : State) (g : Nat) : Nat → Prop
  | direct {d : Nat} : d ∈ st.notif g → Hears st g d
  | via {d e g' : Nat} : Hears st g d → st.home d = some g' → e ∈ st.notif g' → Hears st g e

/-! ## Invariant -/

/-- Like `ValueOf`, with every link registered. -/
inductive Sup (c : Config) (st : State) : Cell → PV → Prop
  | base (v : PV) : Sup c st (.base v) v
  | derived (d : Nat) (ts : List (Nat × Cell × PV)) (v : PV)
      (hl : (c.links d).map Link.target = ts.map (fun t => some t.1))
      (hc : ∀ t ∈ ts, (st.cells t.1).head? = some t.2.1)
      (hr : ∀ t ∈ ts, d ∈ st.notif t.1)
      (hv : ∀ t ∈ ts, Sup c st t.2.1 t.2.2)
      (hf : c.fn d (ts.map (fun t => t.2.2)) = .ok v) : Sup c st (.derived d) v

theorem Sup.valueOf {c : Config} {st : State} {x : Cell} {v : PV} (h : Sup c st x v) : ValueOf c st.cells x v := by
  induction h with
  | base v => exact .base v
  | derived d ts v hl hc _ _ hf ih => exact .derived d ts v hl hc ih hf

/-- State growth during an evaluation. -/
structure Ext (st st' : State) : Prop where
  cells : st'.cells = st.cells
  home : st'.home = st.home
  notif : ∀ g d, d ∈ st.notif g → d ∈ st'.notif g

theorem Ext.refl (st : State) : Ext st st := ⟨rfl, rfl, fun _ _ h => h⟩

theorem Ext.trans {a b c : State} (h : Ext a b) (h' : Ext b c) : Ext a c :=
  ⟨h'.cells.trans h.cells, h'.home.trans h.home, fun g d x => h'.notif g d (h.notif g d x)⟩

theorem Sup.mono {c : Config} {st st' : State} (he : Ext st st') {x : Cell} {v : PV} (h : Sup c st x v) :
    Sup c st' x v := by
  induction h with
  | base v => exact .base v
  | derived d ts v hl hc hr _ hf ih =>
    exact .derived d ts v hl (by rw [he.cells]; exact hc) (fun t ht => he.notif _ _ (hr t ht)) ih hf

/-- The invariant of the raise mode. -/
structure Inv (c : Config) (st : State) : Prop where
  home : ∀ g d, Cell.derived d ∈ st.cells g → st.home d = some g ∧ d < c.n
  refsLen : ∀ d, (st.refs d).length = (c.links d).length
  refsOk : ∀ d, d < c.n → ∀ (i g : Nat), (st.refs d)[i]? = some (some g) →
    (c.links d)[i]?.map Link.target = some (some g) ∧ d ∈ st.notif g
  expl : ∀ (d i g : Nat), (c.links d)[i]? = some (.field g) → ∃ g', (st.refs d)[i]? = some (some g')
  notifLt : ∀ g d, d ∈ st.notif g → d < c.n
  sup : ∀ d, st.valid d = true → Sup c st (.derived d) (st.cache d)

theorem inv_init (c : Config) : Inv c (init c) where
  home := by intro g d h; simp [init] at h
  refsLen := by intro d; simp [init]
  refsOk := by
    intro d hd i g h
    simp only [init, List.getElem?_map, Option.map_eq_some_iff] at h
    obtain ⟨l, hl, hg⟩ := h
    refine ⟨?_, ?_⟩
    · rw [hl]
      cases l with
      | field g' => simpa [Link.initRef, Link.target] using hg
      | named t => simp [Link.initRef] at hg
    · simp only [init, List.mem_filter, List.mem_range, decide_eq_true_eq]
      refine ⟨hd, List.mem_map.mpr ⟨l, List.mem_of_getElem? hl, hg⟩⟩
  expl := by
    intro d i g h
    exact ⟨g, by simp [init, h, Link.initRef]⟩
  notifLt := by
    intro g d h
    simp [init] at h
    exact h.1
  sup := by intro d h; simp [init] at h

theorem populate_spec (c : Config) (d : Nat) (hd : d < c.n) (ls : List Link) :
    ∀ (st : State) (i : Nat), Inv c st → ls = (c.links d).drop i →
      Inv c (populate d st i ls).1 ∧ Ext st (populate d st i ls).1 ∧
      (∀ (j g : Nat), (st.refs d)[j]? = some (some g) → ((populate d st i ls).1.refs d)[j]? = some (some g)) ∧
      ((populate d st i ls).2 = .ok () → ∀ j : Nat, i ≤ j → j < (c.links d).length →
        ∃ g, ((populate d st i ls).1.refs d)[j]? = some (some g)) := by
  induction ls with
  | nil =>
    intro st i hi hls
    refine ⟨hi, Ext.refl _, fun _ _ h => h, ?_⟩
    intro _ j hij hj
    have := congrArg List.length hls
    simp at this
    omega
  | cons l ls ih =>
    intro st i hi hls
    have hli : (c.links d)[i]? = some l := by
      have := congrArg List.head? hls
      simpa [List.head?_drop] using this.symm
    have hls' : ls = (c.links d).drop (i + 1) := by
      have := congrArg List.tail hls
      simpa using this
    unfold populate
    split
    · rename_i g hg
      obtain ⟨a, b, e, f⟩ := ih st (i + 1) hi hls'
      refine ⟨a, b, e, ?_⟩
      intro hok j hij hj
      by_cases hj' : j = i
      · subst hj'; exact ⟨g, e _ _ hg⟩
      · exact f hok j (by omega) hj
    · rename_i hnone
      cases ht : l.target with
      | none => exact ⟨hi, Ext.refl _, fun _ _ h => h, by simp⟩
      | some g =>
        have hlen : i < (st.refs d).length := by
          rw [hi.refsLen]
          exact (List.getElem?_eq_some_iff.mp hli).1
        dsimp only
        set st1 : State := { st with
          refs := upd st.refs d ((st.refs d).set i (some g))
          notif := upd st.notif g (st.notif g ++ [d]) } with hst1
        have hex : Ext st st1 := by
          refine ⟨rfl, rfl, ?_⟩
          intro g' e he
          simp only [hst1, upd]
          split
          · rename_i h; subst h; exact List.mem_append_left _ he
          · exact he
        have hdn : d ∈ st1.notif g := by simp [hst1, upd]
        have hi1 : Inv c st1 := by
          refine ⟨hi.home, ?_, ?_, ?_, ?_, ?_⟩
          · intro e
            simp only [hst1, upd]
            split
            · rename_i h; subst h; simp [hi.refsLen]
            · exact hi.refsLen e
          · intro e he j g' hj
            by_cases hed : e = d
            · subst hed
              simp only [hst1, upd, if_true] at hj
              rw [List.getElem?_set] at hj
              split at hj
              · rename_i hij; subst hij
                simp at hj; subst hj
                exact ⟨by rw [hli]; simp [ht], hdn⟩
              · obtain ⟨a, b⟩ := hi.refsOk e he j g' hj
                exact ⟨a, hex.notif _ _ b⟩
            · simp only [hst1, upd, if_neg hed] at hj
              obtain ⟨a, b⟩ := hi.refsOk e he j g' hj
              exact ⟨a, hex.notif _ _ b⟩
          · intro e j g' hj
            obtain ⟨g'', hg''⟩ := hi.expl e j g' hj
            by_cases hed : e = d
            · subst hed
              simp only [hst1, upd, if_true]
              rw [List.getElem?_set]
              split
              · rename_i hij; subst hij
                exact ⟨g, by simp [hlen]⟩
              · exact ⟨g'', hg''⟩
            · simp only [hst1, upd, if_neg hed]
              exact ⟨g'', hg''⟩
          · intro g' e he
            simp only [hst1, upd] at he
            split at he
            · rcases List.mem_append.mp he with h | h
              · exact hi.notifLt _ _ h
              · simp at h; subst h; exact hd
            · exact hi.notifLt _ _ he
          · intro e he
            exact (hi.sup e he).mono hex
        obtain ⟨a, b, e, f⟩ := ih st1 (i + 1) hi1 hls'
        have hkeep : ∀ (j g' : Nat), (st.refs d)[j]? = some (some g') → (st1.refs d)[j]? = some (some g') := by
          intro j g' hj
          simp only [hst1, upd, if_true]
          rw [List.getElem?_set]
          split
          · rename_i hij; subst hij
            exact absurd hj (by intro h; exact hnone _ h)
          · exact hj
        refine ⟨a, hex.trans b, fun j g' hj => e _ _ (hkeep j g' hj), ?_⟩
        intro hok j hij hj
        by_cases hj' : j = i
        · subst hj'
          refine ⟨g, e _ _ ?_⟩
          simp only [hst1, upd, if_true]
          rw [List.getElem?_set_self hlen]
        · exact f hok j (by omega) hj

/-- All links located: the references are the targets. -/
theorem refs_full {c : Config} {st : State} (hi : Inv c st) {d : Nat} (hd : d < c.n)
    (hfull : ∀ j : Nat, j < (c.links d).length → ∃ g : Nat, (st.refs d)[j]? = some (some g)) :
    (c.links d).map Link.target = ((st.refs d).filterMap id).map some ∧
    ∀ g ∈ (st.refs d).filterMap id, d ∈ st.notif g := by
  have h1 : st.refs d = ((st.refs d).filterMap id).map some := by
    have : ∀ r ∈ st.refs d, r.isSome := by
      intro r hr
      obtain ⟨j, hj⟩ := List.getElem?_of_mem hr
      obtain ⟨g, hg⟩ := hfull j (by rw [← hi.refsLen]; exact (List.getElem?_eq_some_iff.mp hj).1)
      rw [hj] at hg
      simp at hg; simp [hg]
    clear hfull
    revert this
    generalize st.refs d = l
    intro this
    induction l with
    | nil => rfl
    | cons r l ih =>
      cases r with
      | none => simpa using this none (by simp)
      | some g =>
        have h3 : (some g :: l).filterMap id = g :: l.filterMap id := rfl
        rw [h3, List.map_cons, ← ih (fun r hr => this r (List.mem_cons_of_mem _ hr))]
  have h2 : (c.links d).map Link.target = st.refs d := by
    apply List.ext_getElem?
    intro j
    by_cases hj : j < (c.links d).length
    · obtain ⟨g, hg⟩ := hfull j hj
      rw [hg, List.getElem?_map]
      exact (hi.refsOk d hd j g hg).1
    · rw [List.getElem?_eq_none (by simpa using hj), List.getElem?_eq_none (by rw [hi.refsLen]; omega)]
  refine ⟨by rw [h2]; exact h1, ?_⟩
  intro g hg
  simp only [List.mem_filterMap, id, exists_eq_right] at hg
  obtain ⟨j, hj⟩ := List.getElem?_of_mem hg
  exact (hi.refsOk d hd j g hj).2

theorem link_spec (c : Config) (st : State) (d : Nat) (hd : d < c.n) (hi : Inv c st) :
    Inv c (link c st d).1 ∧ Ext st (link c st d).1 ∧
    ∀ gs, (link c st d).2 = .ok gs → (c.links d).map Link.target = gs.map some ∧
      ∀ g ∈ gs, d ∈ (link c st d).1.notif g := by
  unfold link
  split
  · split
    · have := populate_spec c d hd (c.links d) st 0 hi (by simp)
      split
      · rename_i st1 e heq
        rw [heq] at this
        exact ⟨this.1, this.2.1, by simp⟩
      · rename_i st1 u heq
        rw [heq] at this
        obtain ⟨a, b, _, f⟩ := this
        refine ⟨a, b, ?_⟩
        intro gs hgs
        simp only [Except.ok.injEq] at hgs
        subst hgs
        exact refs_full a hd (fun j hj => f rfl j (Nat.zero_le _) hj)
    · exact ⟨hi, Ext.refl _, by simp⟩
  · rename_i hnone
    refine ⟨hi, Ext.refl _, ?_⟩
    intro gs hgs
    simp only [Except.ok.injEq] at hgs
    subst hgs
    refine refs_full hi hd ?_
    intro j hj
    rw [← hi.refsLen] at hj
    rw [List.getElem?_eq_getElem hj]
    cases hr : (st.refs d)[j] with
    | none => exact absurd (hr ▸ List.getElem_mem hj) hnone
    | some g => exact ⟨g, rfl⟩

/-- What an evaluator guarantees in raise mode. -/
def Sound (c : Config) (ev : State → Nat → State × Except Exc PV) : Prop :=
  ∀ st d, d < c.n → Inv c st → Inv c (ev st d).1 ∧ Ext st (ev st d).1 ∧
    ∀ v, (ev st d).2 = .ok v → Sup c (ev st d).1 (.derived d) v

theorem probe_sound {c : Config} {ev} (hev : Sound c ev) (cs : List Cell) :
    ∀ st, Inv c st → (∀ d, Cell.derived d ∈ cs → d < c.n) →
      Inv c (probe ev st cs).1 ∧ Ext st (probe ev st cs).1 := by
  induction cs with
  | nil => intro st hi _; exact ⟨hi, Ext.refl _⟩
  | cons x cs ih =>
    intro st hi hlt
    cases x with
    | base v => exact ih st hi (fun d hd => hlt d (List.mem_cons_of_mem _ hd))
    | derived d =>
      obtain ⟨a, b, _⟩ := hev st d (hlt d (by simp)) hi
      unfold probe
      split
      · rename_i st1 v heq
        rw [heq] at a b
        obtain ⟨a', b'⟩ := ih st1 a (fun d hd => hlt d (List.mem_cons_of_mem _ hd))
        exact ⟨a', b.trans b'⟩
      · rename_i st1 e heq
        rw [heq] at a b
        exact ⟨a, b⟩

theorem call_sound {c : Config} {ev} (hev : Sound c ev) (st : State) (g : Nat) (hi : Inv c st) :
    Inv c (call ev st g).1 ∧ Ext st (call ev st g).1 ∧
    ∀ v, (call ev st g).2 = .ok v → ∃ x, ((call ev st g).1.cells g).head? = some x ∧ Sup c (call ev st g).1 x v := by
  cases hcs : st.cells g with
  | nil =>
    have : call ev st g = (st, .error .index) := by simp [call, hcs]
    rw [this]
    exact ⟨hi, Ext.refl _, by simp⟩
  | cons x cs =>
    cases x with
    | base v =>
      have : call ev st g = (st, .ok v) := by simp [call, hcs]
      rw [this]
      refine ⟨hi, Ext.refl _, ?_⟩
      intro w hw
      simp only [Except.ok.injEq] at hw
      subst hw
      exact ⟨.base v, by simp [hcs], .base v⟩
    | derived d =>
      have : call ev st g = ev st d := by simp [call, hcs]
      rw [this]
      obtain ⟨a, b, f⟩ := hev st d (hi.home g d (by simp [hcs])).2 hi
      refine ⟨a, b, fun v hv => ⟨.derived d, ?_, f v hv⟩⟩
      rw [b.cells, hcs]; rfl

theorem dep_sound {c : Config} {ev} (hev : Sound c ev) (st : State) (g : Nat) (hi : Inv c st) :
    Inv c (dep ev st g).1 ∧ Ext st (dep ev st g).1 ∧
    ∀ v, (dep ev st g).2 = .ok v → ∃ x, ((dep ev st g).1.cells g).head? = some x ∧ Sup c (dep ev st g).1 x v := by
  have hp := probe_sound hev (st.cells g) st hi (fun d hd => (hi.home g d hd).2)
  unfold dep
  split
  · rename_i st1 heq
    rw [heq] at hp
    obtain ⟨a, b, f⟩ := call_sound hev st1 g hp.1
    exact ⟨a, hp.2.trans b, f⟩
  · rename_i st1 heq
    rw [heq] at hp
    obtain ⟨a, b, f⟩ := call_sound hev st1 g hp.1
    split
    · rename_i st2 e heq2
      rw [heq2] at a b
      exact ⟨a, hp.2.trans b, by simp⟩
    · rename_i st2 v heq2
      rw [heq2] at a b
      obtain ⟨a', b', f'⟩ := call_sound hev st2 g a
      exact ⟨a', (hp.2.trans b).trans b', f'⟩

theorem depsList_sound {c : Config} {ev} (hev : Sound c ev) (gs : List Nat) :
    ∀ st, Inv c st → Inv c (depsList ev st gs).1 ∧ Ext st (depsList ev st gs).1 ∧
      ∀ vs, (depsList ev st gs).2 = .ok vs → ∃ ts : List (Nat × Cell × PV),
        ts.map (fun t => t.1) = gs ∧ ts.map (fun t => t.2.2) = vs ∧
        (∀ t ∈ ts, ((depsList ev st gs).1.cells t.1).head? = some t.2.1) ∧
        ∀ t ∈ ts, Sup c (depsList ev st gs).1 t.2.1 t.2.2 := by
  induction gs with
  | nil =>
    intro st hi
    refine ⟨hi, Ext.refl _, ?_⟩
    intro vs hvs
    simp only [depsList, Except.ok.injEq] at hvs
    subst hvs
    exact ⟨[], by simp⟩
  | cons g gs ih =>
    intro st hi
    have hd := dep_sound hev st g hi
    unfold depsList
    split
    · rename_i st1 e heq
      rw [heq] at hd
      exact ⟨hd.1, hd.2.1, by simp⟩
    · rename_i st1 v heq
      rw [heq] at hd
      obtain ⟨a, b, f⟩ := hd
      obtain ⟨a', b', f'⟩ := ih st1 a
      split
      · rename_i st2 e heq2
        rw [heq2] at a' b'
        exact ⟨a', b.trans b', by simp⟩
      · rename_i st2 vs heq2
        rw [heq2] at a' b' f'
        refine ⟨a', b.trans b', ?_⟩
        intro ws hws
        simp only [Except.ok.injEq] at hws
        subst hws
        obtain ⟨x, hx, hs⟩ := f v rfl
        obtain ⟨ts, h1, h2, h3, h4⟩ := f' vs rfl
        refine ⟨(g, x, v) :: ts, by simp [h1], by simp [h2], ?_, ?_⟩
        · intro t ht
          rcases List.mem_cons.mp ht with rfl | ht
          · dsimp only; rw [b'.cells]; exact hx
          · exact h3 t ht
        · intro t ht
          rcases List.mem_cons.mp ht with rfl | ht
          · exact hs.mono b'
          · exact h4 t ht

theorem handle_raise (c : Config) (st : State) (d : Nat) (e : Exc) :
    (handle c .raise st d e).1 = st ∧ ∃ e', (handle c .raise st d e).2 = .error e' := by
  unfold handle
  split
  · exact ⟨rfl, _, rfl⟩
  · split
    · exact ⟨rfl, _, rfl⟩
    · exact ⟨rfl, _, rfl⟩

theorem compute_sound {c : Config} {ev} (hev : Sound c ev) (stack : List Nat) :
    Sound c (compute c .raise ev stack) := by
  intro st d hd hi
  have hh : ∀ st1 e, Inv c st1 → Ext st st1 → Inv c (handle c .raise st1 d e).1 ∧
      Ext st (handle c .raise st1 d e).1 ∧
      ∀ v, (handle c .raise st1 d e).2 = .ok v → Sup c (handle c .raise st1 d e).1 (.derived d) v := by
    intro st1 e h1 h2
    obtain ⟨a, e', b⟩ := handle_raise c st1 d e
    rw [a, b]
    exact ⟨h1, h2, by simp⟩
  unfold compute
  split
  · exact hh st _ hi (Ext.refl _)
  · obtain ⟨a, b, f⟩ := link_spec c st d hd hi
    split
    · rename_i st1 e heq
      rw [heq] at a b
      exact hh st1 _ a b
    · rename_i st1 gs heq
      rw [heq] at a b f
      obtain ⟨hl, hr⟩ := f gs rfl
      obtain ⟨a', b', f'⟩ := depsList_sound hev gs st1 a
      split
      · rename_i st2 e heq2
        rw [heq2] at a' b'
        exact hh st2 _ a' (b.trans b')
      · rename_i st2 vs heq2
        rw [heq2] at a' b' f'
        split
        · exact hh st2 _ a' (b.trans b')
        · rename_i v hv
          obtain ⟨ts, h1, h2, h3, h4⟩ := f' vs rfl
          set st3 : State := { st2 with cache := upd st2.cache d v, valid := upd st2.valid d true } with hst3
          have hex : Ext st2 st3 := ⟨rfl, rfl, fun _ _ h => h⟩
          have hsup : Sup c st3 (.derived d) v := by
            refine .derived d ts v ?_ ?_ ?_ (fun t ht => (h4 t ht).mono hex) ?_
            · rw [hl, ← h1, List.map_map]; rfl
            · intro t ht; exact h3 t ht
            · intro t ht
              refine hex.notif _ _ (b'.notif _ _ (hr _ ?_))
              rw [← h1]; exact List.mem_map_of_mem ht
            · rw [h2]; exact hv
          refine ⟨⟨a'.home, a'.refsLen, a'.refsOk, a'.expl, a'.notifLt, ?_⟩, (b.trans b').trans hex, ?_⟩
          · intro e he
            by_cases hed : e = d
            · subst hed
              simp only [hst3, upd, if_true]
              exact hsup
            · simp only [hst3, upd, if_neg hed] at he ⊢
              exact (a'.sup e he).mono hex
          · intro w hw
            simp only [Except.ok.injEq] at hw
            subst hw
            exact hsup

theorem value_sound (c : Config) (fuel : Nat) : ∀ stack, Sound c (value c .raise fuel stack) := by
  induction fuel with
  | zero =>
    intro stack st d _ hi
    exact ⟨hi, Ext.refl _, by simp [value]⟩
  | succ fuel ih =>
    intro stack st d hd hi
    unfold value
    split
    · rename_i hval
      refine ⟨hi, Ext.refl _, ?_⟩
      intro v hv
      simp only [Except.ok.injEq] at hv
      subst hv
      exact hi.sup d hval
    · exact compute_sound (ih _) _ st d hd hi

/-! ## Invalidation -/

/-- Only flags change, and only from valid to invalid. -/
structure Less (st st' : State) : Prop where
  eq : st' = { st with valid := st'.valid }
  le : ∀ d, st'.valid d = true → st.valid d = true

theorem Less.refl (st : State) : Less st st := ⟨rfl, fun _ h => h⟩

theorem Less.trans {a b c : State} (h : Less a b) (h' : Less b c) : Less a c := by
  refine ⟨?_, fun d x => h.le d (h'.le d x)⟩
  rw [h'.eq, h.eq]

theorem Less.home {a b : State} (h : Less a b) : b.home = a.home := by rw [h.eq]
theorem Less.notif {a b : State} (h : Less a b) : b.notif = a.notif := by rw [h.eq]
theorem Less.cells {a b : State} (h : Less a b) : b.cells = a.cells := by rw [h.eq]

theorem notifyAll_less {inv : State → Nat → State × Except Exc Unit} (hinv : ∀ st d, Less st (inv st d).1) (ds : List Nat) :
    ∀ st, Less st (notifyAll inv st ds).1 := by
  induction ds with
  | nil => intro st; exact Less.refl _
  | cons d ds ih =>
    intro st
    have := hinv st d
    unfold notifyAll
    split
    · rename_i st1 e heq; rw [heq] at this; exact this
    · rename_i st1 u heq; rw [heq] at this; exact this.trans (ih st1)

theorem less_clear (st : State) (d : Nat) : Less st { st with valid := upd st.valid d false } := by
  refine ⟨rfl, ?_⟩
  intro e he
  simp only [upd] at he
  split at he
  · simp at he
  · exact he

theorem invalidate_less (c : Config) (fuel : Nat) : ∀ stack st d, Less st (invalidate c fuel stack st d).1 := by
  induction fuel with
  | zero => intro stack st d; exact Less.refl _
  | succ fuel ih =>
    intro stack st d
    unfold invalidate
    split
    · split <;> exact Less.refl _
    · dsimp only
      split
      · exact less_clear st d
      · exact (less_clear st d).trans (notifyAll_less (ih _) _ _)

theorem inv_less {c : Config} {st st' : State} (h : Less st st') (hi : Inv c st) : Inv c st' := by
  have hex : Ext st st' := ⟨h.cells, h.home, by intro g d; rw [h.notif]; exact id⟩
  have hr : st'.refs = st.refs := by rw [h.eq]
  have hc : st'.cache = st.cache := by rw [h.eq]
  refine ⟨?_, ?_, ?_, ?_, ?_, ?_⟩
  · rw [h.cells, h.home]; exact hi.home
  · rw [hr]; exact hi.refsLen
  · rw [hr, h.notif]; exact hi.refsOk
  · rw [hr]; exact hi.expl
  · rw [h.notif]; exact hi.notifLt
  · intro d hd
    rw [hc]
    exact (hi.sup d (h.le d hd)).mono hex

/-- `d'` is fed by `d` (it is registered with `d`'s field). -/
def Feeds (st : State) (d d' : Nat) : Prop := ∃ g, st.home d = some g ∧ d' ∈ st.notif g

/-- A path of `Feeds` steps from `d` to `t` with no vertex in `S`. -/
inductive Path (st : State) : List Nat → Nat → Nat → Prop
  | refl {S : List Nat} {d : Nat} : d ∉ S → Path st S d d
  | step {S : List Nat} {d e t : Nat} : d ∉ S → Feeds st d e → Path st S e t → Path st S d t

theorem Path.cut {st : State} {S : List Nat} {a t : Nat} (h : Path st S a t) (d : Nat) :
    Path st (d :: S) a t ∨ (d ∉ S ∧ (d = t ∨ ∃ e, Feeds st d e ∧ Path st (d :: S) e t)) := by
  induction h with
  | @refl x hx =>
    by_cases hxd : x = d
    · subst hxd; right; exact ⟨hx, Or.inl rfl⟩
    · left; exact .refl (by simp [hxd, hx])
  | @step x e t hx hf hp ih =>
    rcases ih with h | h
    · by_cases hxd : x = d
      · subst hxd; right; exact ⟨hx, Or.inr ⟨e, hf, h⟩⟩
      · left; exact .step (by simp [hxd, hx]) hf h
    · right; exact h

theorem Feeds.less {st st' : State} (h : Less st st') {a b : Nat} : Feeds st' a b ↔ Feeds st a b := by
  unfold Feeds; rw [h.home, h.notif]

theorem Path.less {st st' : State} (h : Less st st') {S : List Nat} {a b : Nat} (hp : Path st S a b) : Path st' S a b := by
  induction hp with
  | refl hx => exact .refl hx
  | step hx hf _ ih => exact .step hx ((Feeds.less h).mpr hf) ih

/-- Reachability without avoiding anything. -/
inductive Reaches (st : State) : Nat → Nat → Prop
  | refl {d : Nat} : Reaches st d d
  | step {d e t : Nat} : Feeds st d e → Reaches st e t → Reaches st d t

theorem Reaches.path {st : State} {d t : Nat} (h : Reaches st d t) : Path st [] d t := by
  induction h with
  | refl => exact .refl (by simp)
  | step hf _ ih => exact .step (by simp) hf ih

theorem Reaches.snoc {st : State} {a b e : Nat} (h : Reaches st a b) (hf : Feeds st b e) : Reaches st a e := by
  induction h with
  | refl => exact .step hf .refl
  | step h1 _ ih => exact .step h1 (ih hf)

theorem Reaches.less {st st' : State} (h : Less st st') {a b : Nat} (hp : Reaches st' a b) : Reaches st a b := by
  induction hp with
  | refl => exact .refl
  | step hf _ ih => exact .step ((Feeds.less h).mp hf) ih

/-- A complete, successful invalidation. -/
theorem notifyAll_reaches {inv : State → Nat → State × Except Exc Unit} (S : List Nat)
    (hl : ∀ st d, Less st (inv st d).1)
    (hinv : ∀ st d, (inv st d).2 = .ok () → ∀ t, Path st S d t → (inv st d).1.valid t = false)
    (ds : List Nat) : ∀ st, (notifyAll inv st ds).2 = .ok () →
      ∀ d ∈ ds, ∀ t, Path st S d t → (notifyAll inv st ds).1.valid t = false := by
  induction ds with
  | nil => intro st _ d hd; simp at hd
  | cons x ds ih =>
    intro st hok d hd t hp
    have h1 := hl st x
    have h2 := hinv st x
    unfold notifyAll at hok ⊢
    split at hok
    · simp at hok
    · rename_i st1 u heq
      rw [heq] at h1 h2
      have hle := notifyAll_less hl ds st1
      rcases List.mem_cons.mp hd with rfl | hd
      · have := h2 rfl t hp
        by_contra hv
        have := hle.le t (by simpa using hv)
        simp_all
      · exact ih st1 hok d hd t (hp.less h1)

theorem invalidate_reaches (c : Config) (fuel : Nat) : ∀ stack st d, (invalidate c fuel stack st d).2 = .ok () →
    ∀ t, Path st stack d t → (invalidate c fuel stack st d).1.valid t = false := by
  induction fuel with
  | zero => intro stack st d h; simp [invalidate] at h
  | succ fuel ih =>
    intro stack st d hok t hp
    have hnm : d ∉ stack := by cases hp <;> assumption
    unfold invalidate at hok ⊢
    rw [if_neg hnm] at hok ⊢
    dsimp only at hok ⊢
    set st1 : State := { st with valid := upd st.valid d false } with hst1
    have h1 : st1.valid d = false := by simp [hst1, upd]
    have hl1 : Less st st1 := less_clear st d
    have hstep : t ≠ d → ∃ g e, st.home d = some g ∧ e ∈ st1.notif g ∧ Path st1 (d :: stack) e t := by
      intro hne
      rcases hp.cut d with h | ⟨_, h⟩
      · exfalso; cases h with
        | refl h => simp at h
        | step h => simp at h
      · rcases h with h | ⟨e, ⟨g, hg, he⟩, h⟩
        · exact absurd h.symm hne
        · exact ⟨g, e, hg, he, h.less hl1⟩
    by_cases htd : t = d
    · subst htd
      cases hh : st.home t with
      | none => exact h1
      | some g =>
        have hle := notifyAll_less (invalidate_less c fuel (t :: stack)) (st1.notif g) st1
        dsimp only
        by_contra hv
        have := hle.le t (by simpa using hv)
        rw [h1] at this
        simp at this
    · obtain ⟨g, e, hg, he, hpe⟩ := hstep htd
      rw [hg] at hok ⊢
      exact notifyAll_reaches (d :: stack) (invalidate_less c fuel _) (ih _) _ st1 hok e he t hpe

/-- Nothing else is invalidated. -/
theorem notifyAll_only {inv : State → Nat → State × Except Exc Unit} (hl : ∀ st d, Less st (inv st d).1)
    (hinv : ∀ st d t, st.valid t = true → (inv st d).1.valid t = false → Reaches st d t) (ds : List Nat) :
    ∀ st t, st.valid t = true → (notifyAll inv st ds).1.valid t = false → ∃ d ∈ ds, Reaches st d t := by
  induction ds with
  | nil => intro st t h1 h2; simp [notifyAll] at h2; simp_all
  | cons x ds ih =>
    intro st t h1 h2
    have h3 := hinv st x t h1
    have h4 := hl st x
    unfold notifyAll at h2
    split at h2
    · rename_i st1 e heq
      rw [heq] at h3
      exact ⟨x, by simp, h3 h2⟩
    · rename_i st1 u heq
      rw [heq] at h3 h4
      cases hv : st1.valid t with
      | false => exact ⟨x, by simp, h3 hv⟩
      | true =>
        obtain ⟨d, hd, hr⟩ := ih st1 t hv h2
        exact ⟨d, List.mem_cons_of_mem _ hd, hr.less h4⟩

theorem invalidate_only (c : Config) (fuel : Nat) : ∀ stack st d t, st.valid t = true →
    (invalidate c fuel stack st d).1.valid t = false → Reaches st d t := by
  induction fuel with
  | zero => intro stack st d t h1 h2; simp [invalidate] at h2; simp_all
  | succ fuel ih =>
    intro stack st d t h1 h2
    unfold invalidate at h2
    by_cases hd : d ∈ stack
    · rw [if_pos hd] at h2
      split at h2 <;> simp_all
    · rw [if_neg hd] at h2
      dsimp only at h2
      set st1 : State := { st with valid := upd st.valid d false } with hst1
      by_cases htd : t = d
      · subst htd; exact .refl
      · have hv1 : st1.valid t = true := by simp [hst1, upd, htd, h1]
        cases hh : st.home d with
        | none => rw [hh] at h2; dsimp only at h2; simp_all
        | some g =>
          rw [hh] at h2
          obtain ⟨e, he, hr⟩ := notifyAll_only (invalidate_less c fuel _) (ih _) _ st1 t hv1 h2
          exact .step ⟨g, hh, he⟩ (hr.less (less_clear st d))

/-- The recursion depth of an invalidation is bounded by the number of derived values, and it succeeds if all derived
values know their node. -/
theorem notifyAll_ok {inv : State → Nat → State × Except Exc Unit} (P : State → Prop) (bad : Exc → Prop)
    (hl : ∀ st d, Less st (inv st d).1) (hP : ∀ st st', Less st st' → P st → P st') (ds : List Nat)
    (hinv : ∀ st d, P st → d ∈ ds → ∀ e, (inv st d).2 = .error e → ¬ bad e) :
    ∀ st, P st → ∀ e, (notifyAll inv st ds).2 = .error e → ¬ bad e := by
  induction ds with
  | nil => intro st _ e h; simp [notifyAll] at h
  | cons x ds ih =>
    intro st hp e h
    have h1 := hinv st x hp (by simp)
    have h2 := hl st x
    unfold notifyAll at h
    split at h
    · rename_i st1 e' heq
      rw [heq] at h1
      simp only [Except.error.injEq] at h
      subst h
      exact h1 _ rfl
    · rename_i st1 u heq
      rw [heq] at h2
      exact ih (fun st d hs hd => hinv st d hs (List.mem_cons_of_mem _ hd)) st1 (hP _ _ h2 hp) e h

theorem nodup_length_le {n : Nat} {l : List Nat} (hn : l.Nodup) (hl : ∀ x ∈ l, x < n) : l.length ≤ n := by
  have : l ⊆ List.range n := by intro x hx; simpa using hl x hx
  simpa using (hn.subperm this).length_le

/-- Exceptions that cannot come out of an invalidation. -/
def Bad (c : Config) (e : Exc) : Prop := e = .fuel ∨ ∀ d, d < c.n → c.hasNode d = true

theorem invalidate_terminates (c : Config) (fuel : Nat) : ∀ stack st d, (∀ g d, d ∈ st.notif g → d < c.n) →
    stack.Nodup → (∀ s ∈ stack, s < c.n) → d < c.n → c.n + 1 ≤ fuel + stack.length →
    ∀ e, (invalidate c fuel stack st d).2 = .error e →
      ¬ Bad c e := by
  induction fuel with
  | zero =>
    intro stack st d _ hn hs _ hf
    have := nodup_length_le hn hs
    omega
  | succ fuel ih =>
    intro stack st d hst hn hs hd hf e he
    unfold invalidate at he
    by_cases hm : d ∈ stack
    · rw [if_pos hm] at he
      split at he
      · simp at he
      · rename_i hnode
        simp only [Except.error.injEq] at he
        subst he
        rintro (h | h)
        · simp at h
        · exact hnode (h d hd)
    · rw [if_neg hm] at he
      dsimp only at he
      cases hh : st.home d with
      | none => rw [hh] at he; simp at he
      | some g =>
        rw [hh] at he
        dsimp only at he
        refine notifyAll_ok (fun st => ∀ g d, d ∈ st.notif g → d < c.n) (Bad c) (invalidate_less c fuel _) ?_ _ ?_ _ ?_ e he
        rotate_left 2
        · exact hst
        · intro a b hab ha; rw [hab.notif]; exact ha
        · intro st' d' hst' hd'
          refine ih (d :: stack) st' d' hst' (List.nodup_cons.mpr ⟨hm, hn⟩) ?_ (hst g d' hd') ?_
          · intro s hs'
            rcases List.mem_cons.mp hs' with rfl | h
            · exact hd
            · exact hs s h
          · simp only [List.length_cons]; omega

theorem hears_iff (st : State) (g t : Nat) : Hears st g t ↔ ∃ d ∈ st.notif g, Reaches st d t := by
  constructor
  · intro h
    induction h with
    | direct h => exact ⟨_, h, .refl⟩
    | via _ hh he ih =>
      obtain ⟨d, hd, hr⟩ := ih
      refine ⟨d, hd, ?_⟩
      exact hr.snoc ⟨_, hh, he⟩
  · have : ∀ a, Reaches st a t → Hears st g a → Hears st g t := by
      intro a hr ha
      induction hr with
      | refl => exact ha
      | step hf _ ih => obtain ⟨g', h1, h2⟩ := hf; exact ih (Hears.via ha h1 h2)
    rintro ⟨d, hd, hr⟩
    exact this d hr (.direct hd)

/-! ## C20 -/

/-- Only registered derived values are notified: holds in every reachable state (`Inv.notifLt`). -/
def NotifOk (c : Config) (st : State) : Prop := ∀ g d, d ∈ st.notif g → d < c.n

/-- **C20**, termination: a change of a field never runs forever, whatever the dependency graph (the only exception that can
come out is the failure to word the cycle warning). -/
theorem notify_terminates (c : Config) (st : State) (hst : NotifOk c st) (g : Nat) :
    (notifyField c st g).2 ≠ .error .fuel := by
  intro h
  refine notifyAll_ok (NotifOk c) (Bad c)
    (invalidate_less c _ _) ?_ (st.notif g) ?_ st hst .fuel h (Or.inl rfl)
  · intro a b hab ha; unfold NotifOk; rw [hab.notif]; exact ha
  · intro st' d hst' hd e he
    exact invalidate_terminates c _ [] st' d hst' (by simp) (by simp) (hst g d hd) (by simp) e he

/-- **C20**, success: if every derived value has a `sourcenode`, the notification succeeds, also on cyclic graphs. -/
theorem notify_succeeds (c : Config) (st : State) (hst : NotifOk c st) (g : Nat)
    (hnode : ∀ d, d < c.n → c.hasNode d = true) : (notifyField c st g).2 = .ok () := by
  cases h : (notifyField c st g).2 with
  | ok u => rfl
  | error e =>
    exfalso
    refine notifyAll_ok (NotifOk c) (Bad c)
      (invalidate_less c _ _) ?_ (st.notif g) ?_ st hst e h (Or.inr hnode)
    · intro a b hab ha; unfold NotifOk; rw [hab.notif]; exact ha
    · intro st' d hst' hd e he
      exact invalidate_terminates c _ [] st' d hst' (by simp) (by simp) (hst g d hd) (by simp) e he

/-- **C20**, reach: a completed notification has invalidated every derived value that hears of the field, directly or
through other derived values, and no other; nothing but the flags changes. -/
theorem notify_invalidates_exactly (c : Config) (st : State) (g : Nat) (hok : (notifyField c st g).2 = .ok ()) :
    (∀ t, (notifyField c st g).1.valid t = true ↔ (st.valid t = true ∧ ¬ Hears st g t)) ∧
    (notifyField c st g).1 = { st with valid := (notifyField c st g).1.valid } := by
  have hl : Less st (notifyField c st g).1 := notifyAll_less (invalidate_less c _ _) _ st
  refine ⟨?_, hl.eq⟩
  intro t
  constructor
  · intro h
    refine ⟨hl.le t h, ?_⟩
    intro hh
    obtain ⟨d, hd, hr⟩ := (hears_iff st g t).mp hh
    have := notifyAll_reaches [] (invalidate_less c (c.n + 1) []) (invalidate_reaches c _ _) (st.notif g) st hok d hd t hr.path
    unfold notifyField at h
    rw [this] at h
    simp at h
  · rintro ⟨h1, h2⟩
    by_contra h
    refine h2 ((hears_iff st g t).mpr ?_)
    unfold notifyField at h
    exact notifyAll_only (invalidate_less c (c.n + 1) []) (invalidate_only c _ _) (st.notif g) st t h1 (by simpa using h)

/-! ## C19 -/

/-- Field changes C19 is about: those that notify, those of an empty field, those that keep the current value
(see C49 for which calls notify); reading is unrestricted; no evaluation with failures skipped. -/
def Op.Safe (st : State) : Op → Prop
  | .assign g cs notified => notified = true ∨ st.cells g = [] ∨ cs.head? = (st.cells g).head?
  | .read _ => True
  | .check _ => False

theorem sup_place {c : Config} {st : State} {g : Nat} {cs : List Cell}
    (hi : Inv c st) {x : Cell} {v : PV} (h : Sup c st x v)
    (hg : ∀ d, x = .derived d → ¬ Hears st g d ∨ st.cells g = [] ∨ cs.head? = (st.cells g).head?) :
    Sup c (place st g cs) x v := by
  induction h with
  | base v => exact .base v
  | derived d ts v hl hc hr _ hf ih =>
    have hd := hg d rfl
    refine .derived d ts v hl ?_ hr ?_ hf
    · intro t ht
      simp only [place, upd]
      split
      · rename_i htg
        rcases hd with h | h | h
        · exact absurd (.direct (htg ▸ hr t ht)) h
        · have := hc t ht
          rw [htg, h] at this
          simp at this
        · rw [h, ← htg]; exact hc t ht
      · exact hc t ht
    · intro t ht
      refine ih t ht ?_
      intro e he
      rcases hd with h | h
      · left
        intro hh
        have hce := hc t ht
        rw [he] at hce
        have hmem := List.mem_of_mem_head? hce
        exact h (.via hh (hi.home _ _ hmem).1 (hr t ht))
      · right; exact h

theorem inv_place {c : Config} {st : State} {g : Nat} {cs : List Cell} (hi : Inv c st)
    (hp : placeable c st g cs = true)
    (hg : ∀ d, st.valid d = true → ¬ Hears st g d ∨ st.cells g = [] ∨ cs.head? = (st.cells g).head?) :
    Inv c (place st g cs) := by
  have hp' : ∀ d, Cell.derived d ∈ cs → d < c.n ∧ (st.home d = none ∨ st.home d = some g) := by
    intro d hd
    have := List.all_eq_true.mp hp _ hd
    simpa using this
  refine ⟨?_, hi.refsLen, hi.refsOk, hi.expl, hi.notifLt, ?_⟩
  · intro g' d hd
    simp only [place, upd] at hd ⊢
    split at hd
    · rename_i h; subst h
      rw [if_pos hd]
      exact ⟨rfl, (hp' d hd).1⟩
    · rename_i hne
      obtain ⟨a, b⟩ := hi.home g' d hd
      split
      · rename_i hd'
        rcases (hp' d hd').2 with h | h
        · rw [a] at h; simp at h
        · rw [a] at h; simp at h; exact absurd h hne
      · exact ⟨a, b⟩
  · intro d hd
    refine sup_place hi (hi.sup d hd) ?_
    intro e he
    simp only [Cell.derived.injEq] at he
    subst he
    exact hg d hd

theorem inv_step {c : Config} {st : State} (hi : Inv c st) (op : Op) (hs : op.Safe st) :
    Inv c (step c .raise st op).1 := by
  cases op with
  | assign g cs notified =>
    unfold step
    dsimp only
    split
    · rename_i hp
      split
      · rename_i hn
        have hl : Less st (notifyField c st g).1 := notifyAll_less (invalidate_less c _ _) _ st
        have hex := notify_invalidates_exactly c st g
        split
        · rename_i st1 u heq
          rw [heq] at hl hex
          have hi1 := inv_less hl hi
          refine inv_place hi1 ?_ ?_
          · unfold placeable at hp ⊢; rw [hl.home]; exact hp
          · intro d hd
            left
            intro hh
            refine (((hex rfl).1 d).mp hd).2 ?_
            have : ∀ e, Hears st1 g e → Hears st g e := by
              intro e he
              induction he with
              | direct h => exact .direct (by rw [hl.notif] at h; exact h)
              | via _ h1 h2 ih => exact .via ih (by rw [hl.home] at h1; exact h1) (by rw [hl.notif] at h2; exact h2)
            exact this d hh
        · rename_i st1 e heq
          rw [heq] at hl
          exact inv_less hl hi
      · rename_i hn
        refine inv_place hi hp ?_
        intro d _
        right
        rcases hs with h | h
        · exact absurd h hn
        · exact h
    · exact hi
  | read d =>
    unfold step
    dsimp only
    split
    · rename_i hd; exact (value_sound c _ _ st d hd hi).1
    · exact hi
  | check d => exact absurd hs id

/-- A history all of whose operations are safe when they are made. -/
def SafeRun (c : Config) (st : State) : List Op → Prop
  | [] => True
  | op :: ops => op.Safe st ∧ SafeRun c (step c .raise st op).1 ops

theorem inv_run {c : Config} (ops : List Op) : ∀ st, Inv c st → SafeRun c st ops → Inv c (run c .raise st ops) := by
  induction ops with
  | nil => intro st hi _; exact hi
  | cons op ops ih => intro st hi hs; exact ih _ (inv_step hi op hs.1) hs.2

/-- What a value denotes is unique. -/
theorem valueOf_unique {c : Config} {cells : Nat → List Cell} {x : Cell} {v : PV} (h : ValueOf c cells x v) :
    ∀ w, ValueOf c cells x w → v = w := by
  induction h with
  | base v => intro w hw; cases hw; rfl
  | derived d ts v hl hc hv hf ih =>
    intro w hw
    cases hw with
    | derived _ ts' _ hl' hc' hv' hf' =>
      have hts : ts = ts' := by
        rw [hl] at hl'
        clear hf hf' hl hv
        induction ts generalizing ts' with
        | nil => cases ts' with
          | nil => rfl
          | cons => simp at hl'
        | cons t ts iht =>
          cases ts' with
          | nil => simp at hl'
          | cons t' ts' =>
            simp only [List.map_cons, List.cons.injEq, Option.some.injEq] at hl'
            have h1 := hc t (by simp)
            have h2 := hc' t' (by simp)
            rw [← hl'.1, h1] at h2
            simp only [Option.some.injEq] at h2
            have h3 := ih t (by simp) t'.2.2 (by rw [h2]; exact hv' t' (by simp))
            have : t = t' := by
              obtain ⟨a, b, e⟩ := t
              obtain ⟨a', b', e'⟩ := t'
              simp_all
            rw [this]
            congr 1
            exact iht (fun t ht => hc t (List.mem_cons_of_mem _ ht)) (fun t ht => ih t (List.mem_cons_of_mem _ ht))
              ts' (fun t ht => hc' t (List.mem_cons_of_mem _ ht)) (fun t ht => hv' t (List.mem_cons_of_mem _ ht)) hl'.2
      subst hts
      rw [hf] at hf'
      simpa using hf'

/-- `ValueOf` with a bound on the depth. -/
inductive ValueN (c : Config) (cells : Nat → List Cell) : Nat → Cell → PV → Prop
  | base (m : Nat) (v : PV) : ValueN c cells m (.base v) v
  | derived (m d : Nat) (ts : List (Nat × Cell × PV)) (v : PV)
      (hl : (c.links d).map Link.target = ts.map (fun t => some t.1))
      (hc : ∀ t ∈ ts, (cells t.1).head? = some t.2.1)
      (hv : ∀ t ∈ ts, ValueN c cells m t.2.1 t.2.2)
      (hf : c.fn d (ts.map (fun t => t.2.2)) = .ok v) : ValueN c cells (m + 1) (.derived d) v

theorem ValueN.mono {c : Config} {cells : Nat → List Cell} {m : Nat} {x : Cell} {v : PV} (h : ValueN c cells m x v) :
    ∀ m', m ≤ m' → ValueN c cells m' x v := by
  induction h with
  | base m v => intro m' _; exact .base m' v
  | derived m d ts v hl hc _ hf ih =>
    intro m' hm
    obtain ⟨k, rfl⟩ : ∃ k, m' = k + 1 := ⟨m' - 1, by omega⟩
    exact .derived k d ts v hl hc (fun t ht => ih t ht k (by omega)) hf

theorem ValueOf.toN {c : Config} {cells : Nat → List Cell} {x : Cell} {v : PV} (h : ValueOf c cells x v) :
    ∃ m, ValueN c cells m x v := by
  induction h with
  | base v => exact ⟨0, .base 0 v⟩
  | derived d ts v hl hc hv hf ih =>
    have : ∃ m, ∀ t ∈ ts, ValueN c cells m t.2.1 t.2.2 := by
      clear hf hc hl hv
      induction ts with
      | nil => exact ⟨0, by simp⟩
      | cons t ts iht =>
        obtain ⟨m1, h1⟩ := ih t (by simp)
        obtain ⟨m2, h2⟩ := iht (fun t ht => ih t (List.mem_cons_of_mem _ ht))
        refine ⟨max m1 m2, ?_⟩
        intro t' ht'
        rcases List.mem_cons.mp ht' with rfl | h
        · exact h1.mono _ (Nat.le_max_left _ _)
        · exact (h2 t' h).mono _ (Nat.le_max_right _ _)
    obtain ⟨m, hm⟩ := this
    exact ⟨m + 1, .derived m d ts v hl hc hm hf⟩

theorem ValueN.valueOf {c : Config} {cells : Nat → List Cell} {m : Nat} {x : Cell} {v : PV} (h : ValueN c cells m x v) :
    ValueOf c cells x v := by
  induction h with
  | base m v => exact .base v
  | derived m d ts v hl hc _ hf ih => exact .derived d ts v hl hc ih hf

/-- Links that can be followed: explicit, or by name from a node. -/
def Locatable (c : Config) : Prop := ∀ d, d < c.n → c.hasNode d = true ∨ ∀ l ∈ c.links d, ∃ g, l = .field g

theorem populate_ok (d : Nat) (ls : List Link) (h : ∀ l ∈ ls, l.target ≠ none) :
    ∀ st i, (populate d st i ls).2 = .ok () := by
  induction ls with
  | nil => intro st i; rfl
  | cons l ls ih =>
    intro st i
    have ih' := ih (fun l hl => h l (List.mem_cons_of_mem _ hl))
    unfold populate
    split
    · exact ih' _ _
    · cases ht : l.target with
      | none => exact absurd ht (h l (by simp))
      | some g => exact ih' _ _

theorem link_complete {c : Config} {st : State} {d : Nat} (hi : Inv c st) (hd : d < c.n) (hloc : Locatable c)
    {gs : List Nat} (hl : (c.links d).map Link.target = gs.map some) : (link c st d).2 = .ok gs := by
  have hsome : ∀ l ∈ c.links d, l.target ≠ none := by
    intro l hl' hn
    have : (none : Option Nat) ∈ gs.map some := by
      rw [← hl, ← hn]; exact List.mem_map_of_mem hl'
    simp at this
  have hsp := (link_spec c st d hd hi).2.2
  have hex : ∃ gs', (link c st d).2 = .ok gs' := by
    unfold link
    split
    · rename_i hnone
      split
      · have := populate_ok d (c.links d) hsome st 0
        split
        · rename_i heq; rw [heq] at this; simp at this
        · exact ⟨_, rfl⟩
      · rename_i hnode
        rcases hloc d hd with h | h
        · exact absurd h hnode
        · exfalso
          obtain ⟨i, hx⟩ := List.getElem?_of_mem hnone
          have hlen : i < (c.links d).length := by
            rw [← hi.refsLen]; exact (List.getElem?_eq_some_iff.mp hx).1
          obtain ⟨g, hg⟩ := h _ (List.getElem_mem hlen)
          obtain ⟨g', hg'⟩ := hi.expl d i g (by rw [List.getElem?_eq_getElem hlen, hg])
          rw [hx] at hg'
          simp at hg'
    · exact ⟨_, rfl⟩
  obtain ⟨gs', hgs'⟩ := hex
  have := (hsp gs' hgs').1
  rw [hl] at this
  rw [hgs', List.map_injective_iff.mpr (fun _ _ h => Option.some.inj h) this]

theorem depsList_complete {c : Config} {ev} (hev : Sound c ev) {cells : Nat → List Cell} {m : Nat}
    (hcomp : ∀ st d w, Inv c st → st.cells = cells → d < c.n → ValueN c cells m (.derived d) w → (ev st d).2 = .ok w)
    (ts : List (Nat × Cell × PV)) (hc : ∀ t ∈ ts, (cells t.1).head? = some t.2.1)
    (hv : ∀ t ∈ ts, ValueN c cells m t.2.1 t.2.2) :
    ∀ st, Inv c st → st.cells = cells → (depsList ev st (ts.map (fun t => t.1))).2 = .ok (ts.map (fun t => t.2.2)) := by
  have hcall : ∀ t ∈ ts, ∀ st, Inv c st → st.cells = cells → (call ev st t.1).2 = .ok t.2.2 := by
    intro t ht st hi hst
    have h1 := hc t ht
    have h2 := hv t ht
    rw [← hst] at h1
    obtain ⟨g, x, w⟩ := t
    dsimp only at h1 h2 ⊢
    cases hcs : st.cells g with
    | nil => rw [hcs] at h1; simp at h1
    | cons y ys =>
      rw [hcs] at h1
      simp at h1
      subst h1
      cases y with
      | base v => cases h2; simp [call, hcs]
      | derived d =>
        have : call ev st g = ev st d := by simp [call, hcs]
        rw [this]
        exact hcomp st d w hi hst (hi.home g d (by simp [hcs])).2 h2
  have hdep : ∀ t ∈ ts, ∀ st, Inv c st → st.cells = cells → (dep ev st t.1).2 = .ok t.2.2 := by
    intro t ht st hi hst
    have hp := probe_sound hev (st.cells t.1) st hi (fun d hd => (hi.home _ d hd).2)
    unfold dep
    split
    · rename_i st1 heq
      rw [heq] at hp
      exact hcall t ht st1 hp.1 (hp.2.cells.trans hst)
    · rename_i st1 heq
      rw [heq] at hp
      have h1 := hcall t ht st1 hp.1 (hp.2.cells.trans hst)
      have h2 := call_sound hev st1 t.1 hp.1
      split
      · rename_i st2 e heq2; rw [heq2] at h1; simp at h1
      · rename_i st2 v heq2
        rw [heq2] at h2
        exact hcall t ht st2 h2.1 (h2.2.1.cells.trans (hp.2.cells.trans hst))
  clear hcall hc hv
  induction ts with
  | nil => intro st _ _; rfl
  | cons t ts ih =>
    intro st hi hst
    have h1 := hdep t (by simp) st hi hst
    have h2 := dep_sound hev st t.1 hi
    have ih' := ih (fun t ht => hdep t (List.mem_cons_of_mem _ ht))
    simp only [List.map_cons]
    unfold depsList
    split
    · rename_i st1 e heq; rw [heq] at h1; simp at h1
    · rename_i st1 v heq
      rw [heq] at h1 h2
      simp only [Except.ok.injEq] at h1
      have h3 := ih' st1 h2.1 (h2.2.1.cells.trans hst)
      split
      · rename_i st2 e heq2; rw [heq2] at h3; simp at h3
      · rename_i st2 vs heq2
        rw [heq2] at h3
        simp only [Except.ok.injEq] at h3
        rw [h1, h3]

theorem value_complete {c : Config} (hloc : Locatable c) (m : Nat) : ∀ fuel S st d v, Inv c st → d < c.n →
    ValueN c st.cells m (.derived d) v → (∀ s ∈ S, ∀ w, ¬ ValueN c st.cells m (.derived s) w) → S.Nodup →
    (∀ s ∈ S, s < c.n) → c.n + 1 ≤ fuel + S.length → (value c .raise fuel S st d).2 = .ok v := by
  induction m with
  | zero => intro fuel S st d v _ _ h; cases h
  | succ m ih =>
    intro fuel S st d v hi hd hv hS hn hlt hf
    by_cases hsmall : ∃ w, ValueN c st.cells m (.derived d) w
    · obtain ⟨w, hw⟩ := hsmall
      have : w = v := valueOf_unique hw.valueOf v hv.valueOf
      subst this
      exact ih fuel S st d w hi hd hw (fun s hs w hw => hS s hs w (hw.mono _ (Nat.le_succ _))) hn hlt hf
    · cases fuel with
      | zero => have := nodup_length_le hn hlt; omega
      | succ fuel =>
        have hdS : d ∉ S := fun h => hS d h v hv
        have hv0 := hv
        unfold value
        split
        · rename_i hval
          have := valueOf_unique (hi.sup d hval).valueOf v hv0.valueOf
          rw [this]
        · cases hv with
          | derived _ _ ts _ hl hc hvs hfn =>
            have hl' : (c.links d).map Link.target = (ts.map (fun t => t.1)).map some := by
              rw [hl, List.map_map]; rfl
            have h1 := link_complete hi hd hloc hl'
            have h2 := link_spec c st d hd hi
            unfold compute
            rw [if_neg hdS]
            split
            · rename_i st1 e heq; rw [heq] at h1; simp at h1
            · rename_i st1 gs heq
              rw [heq] at h1 h2
              simp only [Except.ok.injEq] at h1
              subst h1
              have hcells : st1.cells = st.cells := h2.2.1.cells
              have h3 := depsList_complete (value_sound c fuel (d :: S)) (cells := st.cells) (m := m) (by
                intro st' d' w hi' hst' hd' hw
                refine ih fuel (d :: S) st' d' w hi' hd' (by rw [hst']; exact hw) ?_ (List.nodup_cons.mpr ⟨hdS, hn⟩) ?_ ?_
                · intro s hs w' hw'
                  rw [hst'] at hw'
                  rcases List.mem_cons.mp hs with rfl | h
                  · exact hsmall ⟨w', hw'⟩
                  · exact hS s h w' (hw'.mono _ (Nat.le_succ _))
                · intro s hs
                  rcases List.mem_cons.mp hs with rfl | h
                  · exact hd
                  · exact hlt s h
                · simp only [List.length_cons]; omega) ts hc hvs st1 h2.1 hcells
              split
              · rename_i st2 e heq2; rw [heq2] at h3; simp at h3
              · rename_i st2 vs heq2
                rw [heq2] at h3
                simp only [Except.ok.injEq] at h3
                rw [h3, hfn]

/-- **C19**: after any history of field changes (that notify, or fill an empty field, or leave the current value) and
reads, over any dependency graph, reading a derived value returns `v` exactly if the present field contents give it the
value `v`; in particular a value served from the cache is never stale.
Missing: changes that do not notify (see C49) and `checkType` evaluations, for which it is false (below); other
`failedvalueaction`s than 'raise'. -/
theorem read_is_current (c : Config) (hloc : Locatable c) (ops : List Op) (hs : SafeRun c (init c) ops)
    (d : Nat) (hd : d < c.n) (v : PV) :
    (read c .raise (run c .raise (init c) ops) d).2 = .ok v ↔
      ValueOf c (run c .raise (init c) ops).cells (.derived d) v := by
  have hi := inv_run ops _ (inv_init c) hs
  constructor
  · intro h
    have hsd := value_sound c (c.n + 1) [] _ d hd hi
    have := (hsd.2.2 v h).valueOf
    rw [hsd.2.1.cells] at this
    exact this
  · intro h
    obtain ⟨m, hm⟩ := h.toN
    exact value_complete hloc m _ [] _ d v hi hd hm (by simp) (by simp) (by simp) (by simp)

/-- **C19**, cache: a valid flag means the cached value is the present one. -/
theorem valid_cache_is_current (c : Config) (ops : List Op) (hs : SafeRun c (init c) ops) (d : Nat)
    (hv : (run c .raise (init c) ops).valid d = true) :
    ValueOf c (run c .raise (init c) ops).cells (.derived d) ((run c .raise (init c) ops).cache d) :=
  ((inv_run ops _ (inv_init c) hs).sup d hv).valueOf

/-! ### Termination of reads -/

/-- Only existing derived values are in fields. -/
def CellsLt (c : Config) (cells : Nat → List Cell) : Prop := ∀ g d, Cell.derived d ∈ cells g → d < c.n

/-- An evaluator that leaves the fields alone and does not run out of fuel. -/
def Term (c : Config) (ev : State → Nat → State × Except Exc PV) : Prop :=
  ∀ st d, CellsLt c st.cells → d < c.n → (ev st d).1.cells = st.cells ∧ (ev st d).2 ≠ .error .fuel

theorem probe_term {c : Config} {ev} (hev : Term c ev) (cs : List Cell) :
    ∀ st, CellsLt c st.cells → (∀ d, Cell.derived d ∈ cs → d < c.n) → (probe ev st cs).1.cells = st.cells := by
  induction cs with
  | nil => intro st _ _; rfl
  | cons x cs ih =>
    intro st hi hlt
    cases x with
    | base v => exact ih st hi (fun d hd => hlt d (List.mem_cons_of_mem _ hd))
    | derived d =>
      have h := (hev st d hi (hlt d (by simp))).1
      unfold probe
      split
      · rename_i st1 v heq
        rw [heq] at h
        dsimp only at h
        rw [ih st1 (by rw [h]; exact hi) (fun d hd => hlt d (List.mem_cons_of_mem _ hd)), h]
      · rename_i st1 e heq
        rw [heq] at h
        exact h

theorem call_term {c : Config} {ev} (hev : Term c ev) (st : State) (hi : CellsLt c st.cells) (g : Nat) :
    (call ev st g).1.cells = st.cells ∧ (call ev st g).2 ≠ .error .fuel := by
  cases hcs : st.cells g with
  | nil => simp [call, hcs]
  | cons x cs =>
    cases x with
    | base v => simp [call, hcs]
    | derived d =>
      have : call ev st g = ev st d := by simp [call, hcs]
      rw [this]
      exact hev st d hi (hi g d (by simp [hcs]))

theorem dep_term {c : Config} {ev} (hev : Term c ev) (st : State) (hi : CellsLt c st.cells) (g : Nat) :
    (dep ev st g).1.cells = st.cells ∧ (dep ev st g).2 ≠ .error .fuel := by
  have hp := probe_term hev (st.cells g) st hi (fun d hd => hi g d hd)
  unfold dep
  split
  · rename_i st1 heq
    rw [heq] at hp
    dsimp only at hp
    have := call_term hev st1 (by rw [hp]; exact hi) g
    rw [hp] at this
    exact this
  · rename_i st1 heq
    rw [heq] at hp
    dsimp only at hp
    have h1 := call_term hev st1 (by rw [hp]; exact hi) g
    rw [hp] at h1
    split
    · rename_i st2 e heq2
      rw [heq2] at h1
      exact h1
    · rename_i st2 v heq2
      rw [heq2] at h1
      have h2 := call_term hev st2 (by rw [h1.1]; exact hi) g
      rw [h1.1] at h2
      exact h2

theorem depsList_term {c : Config} {ev} (hev : Term c ev) (gs : List Nat) : ∀ st, CellsLt c st.cells →
    (depsList ev st gs).1.cells = st.cells ∧ (depsList ev st gs).2 ≠ .error .fuel := by
  induction gs with
  | nil => intro st _; simp [depsList]
  | cons g gs ih =>
    intro st hi
    have h1 := dep_term hev st hi g
    unfold depsList
    split
    · rename_i st1 e heq
      rw [heq] at h1
      refine ⟨h1.1, ?_⟩
      intro h
      apply h1.2
      simpa using h
    · rename_i st1 v heq
      rw [heq] at h1
      have h2 := ih st1 (by rw [h1.1]; exact hi)
      rw [h1.1] at h2
      split
      · rename_i st2 e heq2
        rw [heq2] at h2
        refine ⟨h2.1, ?_⟩
        intro h
        apply h2.2
        simpa using h
      · rename_i st2 vs heq2
        rw [heq2] at h2
        exact ⟨h2.1, by simp⟩

theorem populate_term (d : Nat) (ls : List Link) : ∀ st i,
    (populate d st i ls).1.cells = st.cells ∧ (populate d st i ls).2 ≠ .error .fuel := by
  induction ls with
  | nil => intro st i; simp [populate]
  | cons l ls ih =>
    intro st i
    unfold populate
    split
    · exact ih _ _
    · cases l.target with
      | none => simp
      | some g => exact ih _ _

theorem link_term (c : Config) (st : State) (d : Nat) :
    (link c st d).1.cells = st.cells ∧ (link c st d).2 ≠ .error .fuel := by
  unfold link
  split
  · split
    · have := populate_term d (c.links d) st 0
      split
      · rename_i st1 e heq
        rw [heq] at this
        refine ⟨this.1, ?_⟩
        intro h
        apply this.2
        simpa using h
      · rename_i st1 u heq
        rw [heq] at this
        exact ⟨this.1, by simp⟩
    · simp
  · simp

theorem handle_term (c : Config) (mode : Mode) (st : State) (d : Nat) (e : Exc) (he : e ≠ .fuel) :
    (handle c mode st d e).1.cells = st.cells ∧ (handle c mode st d e).2 ≠ .error .fuel := by
  unfold handle
  split
  · simp
  · split
    · cases mode <;> simp [he]
    · simp [he]

theorem compute_term {c : Config} {mode : Mode} {ev} (stack : List Nat) (st : State) (d : Nat)
    (hi : CellsLt c st.cells) (hev : d ∉ stack → Term c ev) :
    (compute c mode ev stack st d).1.cells = st.cells ∧ (compute c mode ev stack st d).2 ≠ .error .fuel := by
  have hh : ∀ st1 e, st1.cells = st.cells → e ≠ .fuel →
      (handle c mode st1 d e).1.cells = st.cells ∧ (handle c mode st1 d e).2 ≠ .error .fuel := by
    intro st1 e h1 h2
    have := handle_term c mode st1 d e h2
    rw [h1] at this
    exact this
  unfold compute
  split
  · exact hh st _ rfl (by simp)
  · rename_i hds
    have h1 := link_term c st d
    split
    · rename_i st1 e heq
      rw [heq] at h1
      exact hh st1 e h1.1 (by intro h; apply h1.2; rw [h])
    · rename_i st1 gs heq
      rw [heq] at h1
      have h2 := depsList_term (hev hds) gs st1 (by rw [h1.1]; exact hi)
      rw [h1.1] at h2
      split
      · rename_i st2 e heq2
        rw [heq2] at h2
        exact hh st2 e h2.1 (by intro h; apply h2.2; rw [h])
      · rename_i st2 vs heq2
        rw [heq2] at h2
        split
        · rename_i e _
          exact hh st2 _ h2.1 (by cases e <;> simp [FnExc.toExc])
        · exact ⟨h2.1, by simp⟩

theorem value_term (c : Config) (mode : Mode) (fuel : Nat) : ∀ S, S.Nodup → (∀ s ∈ S, s < c.n) →
    c.n + 1 ≤ fuel + S.length → Term c (value c mode fuel S) := by
  induction fuel with
  | zero =>
    intro S hn hs hf
    have := nodup_length_le hn hs
    omega
  | succ fuel ih =>
    intro S hn hs hf st d hi hd
    unfold value
    split
    · simp
    · refine compute_term S st d hi ?_
      intro hds
      refine ih (d :: S) (List.nodup_cons.mpr ⟨hds, hn⟩) ?_ (by simp only [List.length_cons]; omega)
      intro s hs'
      rcases List.mem_cons.mp hs' with rfl | h
      · exact hd
      · exact hs s h

theorem cellsLt_run (c : Config) (mode : Mode) (ops : List Op) :
    ∀ st, CellsLt c st.cells → CellsLt c (run c mode st ops).cells := by
  induction ops with
  | nil => intro st h; exact h
  | cons op ops ih =>
    intro st h
    refine ih _ ?_
    have hpl : ∀ st' g cs, st'.cells = st.cells → placeable c st g cs = true → CellsLt c (place st' g cs).cells := by
      intro st' g cs hst' hp g' d hd
      simp only [place, upd] at hd
      split at hd
      · have := List.all_eq_true.mp hp _ hd
        simp at this
        exact this.1
      · rw [hst'] at hd; exact h g' d hd
    have hval : ∀ mode' d, d < c.n → CellsLt c (read c mode' st d).1.cells := by
      intro mode' d hd
      rw [show (read c mode' st d).1.cells = st.cells from
        (value_term c mode' (c.n + 1) [] (by simp) (by simp) (by simp) st d h hd).1]
      exact h
    cases op with
    | assign g cs notified =>
      unfold step
      dsimp only
      split
      · rename_i hp
        split
        · have hl : Less st (notifyField c st g).1 := notifyAll_less (invalidate_less c _ _) _ st
          split
          · rename_i st1 u heq
            rw [heq] at hl
            exact hpl st1 g cs hl.cells hp
          · rename_i st1 u heq
            rw [heq] at hl
            rw [hl.cells]; exact h
        · exact hpl st g cs rfl hp
      · exact h
    | read d =>
      unfold step
      dsimp only
      split
      · rename_i hd; exact hval _ d hd
      · exact h
    | check d =>
      unfold step
      dsimp only
      split
      · rename_i hd; exact hval _ d hd
      · exact h

/-- **C19**: reading always terminates: after any history whatsoever, with any `failedvalueaction`, also on cyclic
dependency graphs. -/
theorem read_terminates (c : Config) (mode : Mode) (ops : List Op) (d : Nat) (hd : d < c.n) :
    (read c mode (run c mode (init c) ops) d).2 ≠ .error .fuel := by
  refine (value_term c mode (c.n + 1) [] (by simp) (by simp) (by simp) _ d ?_ hd).2
  exact cellsLt_run c mode ops _ (by intro g d h; simp [init] at h)

/-- **Specification**: derived value `d` depends on field `g`, directly or through the current values of the fields it
links to. -/
inductive DependsOn (c : Config) (cells : Nat → List Cell) (g : Nat) : Nat → Prop
  | direct {d : Nat} : some g ∈ (c.links d).map Link.target → DependsOn c cells g d
  | via {d e g' : Nat} : some g' ∈ (c.links d).map Link.target → (cells g').head? = some (.derived e) →
      DependsOn c cells g e → DependsOn c cells g d

theorem sup_hears {c : Config} {st : State} (hi : Inv c st) {g d : Nat} (h : DependsOn c st.cells g d) :
    ∀ v, Sup c st (.derived d) v → Hears st g d := by
  induction h with
  | direct hl =>
    intro v hs
    cases hs with
    | derived _ ts _ hl' _ hr _ _ =>
      rw [hl'] at hl
      obtain ⟨t, ht, he⟩ := List.mem_map.mp hl
      simp only [Option.some.injEq] at he
      exact .direct (he ▸ hr t ht)
  | @via d e g' hl hc _ ih =>
    intro v hs
    cases hs with
    | derived _ ts _ hl' hc' hr hv _ =>
      rw [hl'] at hl
      obtain ⟨t, ht, he⟩ := List.mem_map.mp hl
      simp only [Option.some.injEq] at he
      have h1 := hc' t ht
      rw [he, hc] at h1
      simp only [Option.some.injEq] at h1
      have h2 := hv t ht
      rw [← h1] at h2
      have h3 := hr t ht
      rw [he] at h3
      exact .via (ih _ h2) (hi.home g' e (List.mem_of_mem_head? hc)).1 h3

/-- **C20** in terms of the dependencies themselves: after a notification of field `g`, no derived value that depends on
`g` is valid.
Missing: if some derived values have no `sourcenode` the notification may raise instead
(`cycle_without_node_raises`). -/
theorem change_invalidates_dependents (c : Config) (ops : List Op) (hs : SafeRun c (init c) ops) (g : Nat)
    (hnode : ∀ d, d < c.n → c.hasNode d = true) (d : Nat)
    (hd : DependsOn c (run c .raise (init c) ops).cells g d) :
    (notifyField c (run c .raise (init c) ops) g).2 = .ok () ∧
    (notifyField c (run c .raise (init c) ops) g).1.valid d = false := by
  have hi := inv_run ops _ (inv_init c) hs
  have hok := notify_succeeds c _ hi.notifLt g hnode
  refine ⟨hok, ?_⟩
  by_contra h
  have h' := ((notify_invalidates_exactly c _ g hok).1 d).mp (by simpa using h)
  exact h'.2 (sup_hears hi hd _ (hi.sup d h'.1))

/-! ### Examples and counterexamples -/

/-- Fields 0 (observed), 1 holding `d0 = f0 + 1` (explicit link), 2 holding `d1 = 10 * f1` (link by name);
`d2` links fields 1 and 2. -/
def exCfg : Config where
  n := 3
  links := fun d => if d = 0 then [.field 0] else if d = 1 then [.named (some 1)] else [.field 1, .named (some 2)]
  fn := fun d vs => match d, vs with
    | 0, [some x] => .ok (some (x + 1))
    | 1, [some x] => .ok (some (10 * x))
    | 2, [some x, some y] => .ok (some (x + y))
    | 2, [none, _] => .ok (some 0)
    | _, _ => .error .listed
  hasNode := fun d => d ≠ 0

/-- Placing, reading and changing. -/
def exOps : List Op := [.assign 1 [.derived 0] false, .assign 2 [.derived 1, .base (some 5)] false, .read 2,
  .assign 0 [.base (some 4)] false, .read 2, .assign 0 [.base (some 6)] true]

example : SafeRun exCfg (init exCfg) exOps :=
  ⟨Or.inr (Or.inl rfl), Or.inr (Or.inl rfl), trivial, Or.inr (Or.inl (by decide)), trivial, Or.inl rfl, trivial⟩
example : Locatable exCfg := by
  intro d hd
  by_cases h : d = 0
  · right; subst h; intro l hl; exact ⟨0, by simpa [exCfg] using hl⟩
  · left; simp [exCfg, h]
example : (read exCfg .raise (run exCfg .raise (init exCfg) exOps) 2).2 = .ok (some 77) := by decide
example : (run exCfg .raise (init exCfg) (exOps.take 5)).valid 2 = true := by decide
example : (run exCfg .raise (init exCfg) exOps).valid 2 = false := by decide

/-- The restriction to notifying changes in C19 is needed: after a change that does not notify
(such as `field[-1] = value`) the old value is served. -/
theorem unnotified_change_is_stale :
    let st := run exCfg .raise (init exCfg) [.assign 0 [.base (some 4)] true, .read 0, .assign 0 [.base (some 6)] false]
    (read exCfg .raise st 0).2 = .ok (some 5) ∧ st.cells 0 = [.base (some 6)] := by decide

/-- Storing a derived value in a field evaluates it with failures skipped (`checkType`); a value computed from a missing one
is then kept, and served after the missing one has become available. -/
theorem check_leaves_stale_value :
    let st := run exCfg .raise (init exCfg) [.assign 1 [.derived 0] false, .assign 2 [.base (some 5)] false, .check 2,
      .assign 0 [.base (some 4)] false]
    (read exCfg .raise st 2).2 = .ok (some 0) ∧ (read exCfg .raise st 0).2 = .ok (some 5) := by decide

/-- Two derived values that depend on each other's fields, without a `sourcenode`, and an innocent third. -/
def cycCfg (node : Bool) : Config where
  n := 3
  links := fun d => if d = 0 then [.field 1, .field 2] else if d = 1 then [.field 0, .field 2] else [.field 2]
  fn := fun _ _ => .ok (some 1)
  hasNode := fun _ => node

/-- A reachable cyclic state: with a `sourcenode` everything is invalidated … -/
example : let st := run (cycCfg true) .raise (init (cycCfg true)) [.assign 0 [.derived 0] false,
      .assign 1 [.derived 1] false, .assign 2 [.base (some 7)] true, .read 2, .read 0]
    (st.valid 2, (read (cycCfg true) .raise st 0).2, (notifyField (cycCfg true) st 2).2,
      (notifyField (cycCfg true) st 2).1.valid 2) = (true, .error .cycle, .ok (), false) := by decide

/-- … without one, C20 fails: no change of field 2 is possible any more, each raises AttributeError. -/
theorem cycle_without_node_raises :
    let st := run (cycCfg false) .raise (init (cycCfg false)) [.assign 2 [.base (some 7)] true, .assign 0 [.derived 0] false,
      .assign 1 [.derived 1] false, .read 2]
    (step (cycCfg false) .raise st (.assign 2 [.base (some 8)] true)).2 = .error .attribute ∧
    (step (cycCfg false) .raise st (.assign 2 [.base (some 8)] true)).1.cells 2 = [.base (some 7)] := by decide

/-- `NotifOk` holds in every state of a safe history. -/
theorem notifOk_run (c : Config) (ops : List Op) (hs : SafeRun c (init c) ops) :
    NotifOk c (run c .raise (init c) ops) := (inv_run ops _ (inv_init c) hs).notifLt

end Verif.Derived
