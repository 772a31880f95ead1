import Verif.Registry

/-!
# Properties of the registry of named objects (C96)
-/

namespace Verif.Registry

section dict
variable {β : Type}

theorem get_put (k n : Name) (v : β) (l : List (Name × β)) : get n (put k v l) = if n = k then some v else get n l := by
  induction l with
  | nil => simp [put, get, eq_comm]
  | cons p l ih =>
    obtain ⟨k', v'⟩ := p
    unfold put
    by_cases h : k' = k
    · subst h
      by_cases hn : n = k'
      · subst hn; simp [get]
      · simp [get, hn, Ne.symm hn]
    · rw [if_neg h]
      by_cases hn : k' = n
      · subst hn; simp [get, h]
      · simp only [get, if_neg hn, ih]

theorem get_mem {l : List (Name × β)} {k : Name} {v : β} (h : get k l = some v) : (k, v) ∈ l := by
  induction l with
  | nil => cases h
  | cons p l ih =>
    obtain ⟨k', v'⟩ := p
    unfold get at h
    split_ifs at h with hk
    · cases h; subst hk; simp
    · exact List.mem_cons_of_mem _ (ih h)

theorem mem_get {l : List (Name × β)} {k : Name} {v : β} (hl : (l.map Prod.fst).Nodup) (h : (k, v) ∈ l) : get k l = some v := by
  induction l with
  | nil => cases h
  | cons p l ih =>
    obtain ⟨k', v'⟩ := p
    simp only [List.map_cons, List.nodup_cons] at hl
    rcases List.mem_cons.1 h with h | h
    · cases h; simp [get]
    · have : k' ≠ k := by rintro rfl; exact hl.1 (List.mem_map.2 ⟨_, h, rfl⟩)
      simp only [get, if_neg this]
      exact ih hl.2 h

theorem get_none_of_notMem {l : List (Name × β)} {k : Name} (h : k ∉ l.map Prod.fst) : get k l = none := by
  cases hg : get k l with
  | none => rfl
  | some v => exact absurd (List.mem_map.2 ⟨_, get_mem hg, rfl⟩) h

theorem put_keys (k : Name) (v : β) (l : List (Name × β)) (hl : (l.map Prod.fst).Nodup) : ((put k v l).map Prod.fst).Nodup ∧
    ∀ n, n ∈ (put k v l).map Prod.fst ↔ n = k ∨ n ∈ l.map Prod.fst := by
  induction l with
  | nil => simp [put]
  | cons p l ih =>
    obtain ⟨k', v'⟩ := p
    simp only [List.map_cons, List.nodup_cons] at hl
    obtain ⟨h1, h2⟩ := ih hl.2
    unfold put
    split_ifs with h
    · subst h
      simp only [List.map_cons, List.nodup_cons, List.mem_cons]
      exact ⟨hl, fun n => by tauto⟩
    · simp only [List.map_cons, List.nodup_cons, List.mem_cons]
      refine ⟨⟨?_, h1⟩, fun n => by rw [h2]; tauto⟩
      rw [h2]
      rintro (h' | h')
      · exact h h'
      · exact hl.1 h'

theorem get_foldl_put {γ : Type} (f : γ → Name) (w : γ → β) (l : List γ) (d : List (Name × β)) (n : Name)
    (hu : ∀ a ∈ l, ∀ b ∈ l, f a = f b → w a = w b) :
    (∀ a ∈ l, f a = n → get n (l.foldl (fun d p => put (f p) (w p) d) d) = some (w a)) ∧
    ((∀ a ∈ l, f a ≠ n) → get n (l.foldl (fun d p => put (f p) (w p) d) d) = get n d) := by
  induction l generalizing d with
  | nil => simp
  | cons a l ih =>
    have hu' : ∀ a ∈ l, ∀ b ∈ l, f a = f b → w a = w b := fun x hx y hy => hu x (by simp [hx]) y (by simp [hy])
    obtain ⟨h1, h2⟩ := ih (put (f a) (w a) d) hu'
    simp only [List.foldl_cons]
    constructor
    · intro b hb hbn
      by_cases hex : ∃ c ∈ l, f c = n
      · obtain ⟨c, hc, hcn⟩ := hex
        rw [h1 c hc hcn, hu b hb c (by simp [hc]) (by rw [hbn, hcn])]
      · push Not at hex
        rcases List.mem_cons.1 hb with rfl | hb
        · rw [h2 hex, get_put, if_pos hbn.symm]
        · exact absurd hbn (hex b hb)
    · intro h
      rw [h2 fun b hb => h b (by simp [hb]), get_put, if_neg (fun hn => h a (by simp) hn.symm)]

end dict

theorem mapE_ok {α β : Type} {f : α → Except Err β} {g : α → β} (l : List α) (h : ∀ a ∈ l, f a = .ok (g a)) : mapE f l = .ok (l.map g) := by
  induction l with
  | nil => rfl
  | cons a l ih => simp only [mapE, h a (by simp), ih fun b hb => h b (by simp [hb]), List.map_cons]

variable {V : Type}

/-- The dict of some names: what a group lookup returns. -/
def dictOf (data : List Name) (v : Name → Val V) : List (Name × Val V) := data.foldl (fun d n => put n (v n) d) []

theorem get_dictOf (data : List Name) (v : Name → Val V) (n : Name) : get n (dictOf data v) = if n ∈ data then some (v n) else none := by
  obtain ⟨h1, h2⟩ := get_foldl_put (fun n : Name => n) v data [] n (fun a _ b _ h => by rw [h])
  unfold dictOf
  split_ifs with h
  · exact h1 n h rfl
  · exact h2 fun a ha hn => h (hn ▸ ha)

theorem getItem_obj {r : Reg V} {limit : Nat} (hl : 1 ≤ limit) {k : Name} (hg : get k r.groups = none) {v : V} (hv : get k r.objs = some v) :
    getItem r limit k = .ok (.obj v) := by
  obtain ⟨f, rfl⟩ := Nat.exists_eq_add_of_le' hl
  simp only [getItem, hg, hv]

/-- C96: an unknown name raises KeyError. -/
theorem unknown_name {r : Reg V} {limit : Nat} (hl : 1 ≤ limit) {k : Name} (hg : get k r.groups = none) (hv : get k r.objs = none) :
    getItem r limit k = .error .keyError := by
  obtain ⟨f, rfl⟩ := Nat.exists_eq_add_of_le' hl
  simp only [getItem, hg, hv]

theorem getItem_group {r : Reg V} {limit : Nat} (hl : 2 ≤ limit) {g : Name} {data : List Name} (hg : get g r.groups = some data)
    (hd : ∀ d ∈ data, get d r.groups = none) (w : Name → V) (hw : ∀ d ∈ data, get d r.objs = some (w d)) :
    getItem r limit g = .ok (.dict (dictOf data fun d => .obj (w d))) := by
  obtain ⟨f, rfl⟩ := Nat.exists_eq_add_of_le' hl
  have : mapE (fun d => pair d (getItem r (f + 1) d)) data = .ok (data.map fun d => (d, Val.obj (w d))) := by
    apply mapE_ok
    intro d hdm
    rw [getItem_obj (by omega) (hd d hdm) (hw d hdm)]; rfl
  show getItem r (f + 1 + 1) g = _
  rw [getItem]
  simp only [hg, this]
  rw [List.foldl_map]
  rfl

/-! ## Histories -/

/-- A call of the API. -/
inductive Op (V : Type) where
  | register (objects : List (Name × V)) (gs : List Name)
  | addToGroup (k g : Name)
  | getObjects (a : Arg V) (addmissing : Bool)
  | delItem (k : Name)
  | removeGroup (g : Name)

/-- Parameters that do not change: the registry's type, name, decimal numerals and Python's recursion limit. -/
structure Env (V : Type) where
  K : Kind V
  dataname : Name
  num : Nat → Name
  limit : Nat

variable [DecidableEq V]

/-- The registry after a call (whether it raised or not). -/
noncomputable def step (E : Env V) (r : Reg V) : Op V → Reg V
  | .register objects gs => (register E.K r objects gs).2
  | .addToGroup k g => (addToGroup E.limit r k g).2
  | .getObjects a m => (getObjects E.K E.dataname E.num E.limit r a m).2
  | .delItem k => (delItem r k).2
  | .removeGroup g => (removeGroup r g).2

/-- A new registry. -/
def empty : Reg V := ⟨[], []⟩

noncomputable def run (E : Env V) (ops : List (Op V)) : Reg V := ops.foldl (step E) empty

/-- Every member of a group is registered or is a group. -/
structure Sound (r : Reg V) : Prop where
  members : ∀ g data, get g r.groups = some data → ∀ d ∈ data, (get d r.objs).isSome ∨ (get d r.groups).isSome
  keys : (r.objs.map Prod.fst).Nodup

/-- Names stay registered. -/
def Keeps (o o' : List (Name × V)) : Prop := ∀ n, (get n o).isSome → (get n o').isSome

theorem keeps_put (o : List (Name × V)) (k : Name) (v : V) : Keeps o (put k v o) := by
  intro n hn
  rw [get_put]; split_ifs
  · rfl
  · exact hn

theorem addAll_spec (K : Kind V) : ∀ (l o : List (Name × V)), (o.map Prod.fst).Nodup →
    Keeps o (addAll K l o).2 ∧ ((addAll K l o).2.map Prod.fst).Nodup ∧
    ((addAll K l o).1 = .ok () → ∀ p ∈ l, (get p.1 (addAll K l o).2).isSome) := by
  intro l
  induction l with
  | nil => intro o ho; exact ⟨fun n h => h, ho, fun _ p hp => by cases hp⟩
  | cons q l ih =>
    intro o ho
    obtain ⟨k, v⟩ := q
    unfold addAll
    split_ifs with h
    · obtain ⟨h1, h2, h3⟩ := ih (put k v o) (put_keys k v o ho).1
      refine ⟨fun n hn => h1 n (keeps_put o k v n hn), h2, fun hok p hp => ?_⟩
      rcases List.mem_cons.1 hp with rfl | hp
      · exact h1 _ (by rw [get_put]; simp)
      · exact h3 hok p hp
    · exact ⟨fun n h => h, ho, fun h => by cases h⟩

theorem addMissing_spec (K : Kind V) (dn : Name) (num : Nat → Name) (m : Bool) : ∀ (l : List (Req V)) (o : List (Name × V)),
    (o.map Prod.fst).Nodup → Keeps o (addMissing K dn num m l o).2 ∧ ((addMissing K dn num m l o).2.map Prod.fst).Nodup := by
  intro l
  induction l with
  | nil => intro o ho; exact ⟨fun n h => h, ho⟩
  | cons q l ih =>
    intro o ho
    have hput : ∀ n v, Keeps o (addMissing K dn num m l (put n v o)).2 ∧ ((addMissing K dn num m l (put n v o)).2.map Prod.fst).Nodup := by
      intro n v
      obtain ⟨h1, h2⟩ := ih (put n v o) (put_keys n v o ho).1
      exact ⟨fun k hk => h1 k (keeps_put o n v k hk), h2⟩
    cases q with
    | name n => unfold addMissing; exact ih o ho
    | obj v =>
      unfold addMissing
      split_ifs
      · exact ⟨fun n h => h, ho⟩
      · split
        · split_ifs
          · exact ⟨fun n h => h, ho⟩
          · exact hput _ _
        · split
          · exact hput _ _
          · exact ⟨fun n h => h, ho⟩
      · exact ih o ho

theorem getItem_known {r : Reg V} {limit : Nat} {k : Name} {v : Val V} (h : getItem r limit k = .ok v) :
    (get k r.objs).isSome ∨ (get k r.groups).isSome := by
  cases limit with
  | zero => cases h
  | succ f =>
    rw [getItem] at h
    cases hg : get k r.groups with
    | some d => right; rfl
    | none =>
      left
      simp only [hg] at h
      cases ho : get k r.objs with
      | some d => rfl
      | none => simp only [ho] at h; cases h

theorem groups_fold (gs : List Name) (data : List Name) (d : List (Name × List Name)) (n : Name) :
    get n (gs.foldl (fun d g => put g data d) d) = if n ∈ gs then some data else get n d := by
  obtain ⟨h1, h2⟩ := get_foldl_put (fun n : Name => n) (fun _ => data) gs d n (fun _ _ _ _ _ => rfl)
  split_ifs with h
  · exact h1 n h rfl
  · exact h2 fun a ha hn => h (hn ▸ ha)

theorem sound_step (E : Env V) (r : Reg V) (op : Op V) (h : Sound r) : Sound (step E r op) := by
  cases op with
  | register objects gs =>
    obtain ⟨h1, h2, h3⟩ := addAll_spec E.K objects r.objs h.keys
    simp only [step, register]
    cases ha : addAll E.K objects r.objs with
    | mk res o =>
      rw [ha] at h1 h2 h3
      cases res with
      | error e =>
        refine ⟨fun g data hg d hd => ?_, h2⟩
        exact (h.members g data hg d hd).imp_left (h1 d)
      | ok u =>
        refine ⟨fun g data hg d hd => ?_, h2⟩
        simp only at hg ⊢
        rw [groups_fold] at hg
        rw [groups_fold]
        split_ifs at hg with hgm
        · cases hg
          obtain ⟨p, hp, rfl⟩ := List.mem_map.1 hd
          exact Or.inl (h3 rfl p hp)
        · rcases h.members g data hg d hd with h' | h'
          · exact Or.inl (h1 d h')
          · right; split_ifs
            · rfl
            · exact h'
  | addToGroup k g =>
    simp only [step, addToGroup]
    cases hk : getItem r E.limit k with
    | error e => exact h
    | ok v =>
      refine ⟨fun g' data hg d hd => ?_, h.keys⟩
      simp only at hg ⊢
      have up : (get d r.objs).isSome ∨ (get d r.groups).isSome →
          (get d r.objs).isSome ∨ (get d (put g (if k ∈ (get g r.groups).getD [] then (get g r.groups).getD [] else (get g r.groups).getD [] ++ [k]) r.groups)).isSome := by
        rintro (h' | h')
        · exact Or.inl h'
        · right; rw [get_put]; split_ifs
          all_goals first | rfl | exact h'
      apply up
      rw [get_put] at hg
      have cur : ∀ d ∈ (get g r.groups).getD [], (get d r.objs).isSome ∨ (get d r.groups).isSome := by
        intro d hd
        cases hg' : get g r.groups with
        | none => rw [hg'] at hd; cases hd
        | some data => rw [hg'] at hd; exact h.members g data hg' d hd
      split_ifs at hg with hgg hkm
      · cases hg; exact cur d hd
      · cases hg
        rcases List.mem_append.1 hd with hd | hd
        · exact cur d hd
        · rw [List.mem_singleton.1 hd]; exact getItem_known hk
      · exact h.members g' data hg d hd
  | getObjects a m =>
    have hsame : Sound r := h
    cases a with
    | str s =>
      simp only [step, getObjects]
      split_ifs
      · exact h
      · exact h
      · split <;> exact h
      · split <;> exact h
    | seq l =>
      simp only [step, getObjects]
      split
      · exact h
      · obtain ⟨h1, h2⟩ := addMissing_spec E.K E.dataname E.num m l r.objs h.keys
        by_cases ht : E.K.typed = true
        · simp only [ht, if_true]
          cases ha : addMissing E.K E.dataname E.num m l r.objs with
          | mk res o =>
            rw [ha] at h1 h2
            cases res <;> exact ⟨fun g data hg d hd => (h.members g data hg d hd).imp_left (h1 d), h2⟩
        · simp only [ht]
          exact h
  | delItem k => exact h
  | removeGroup g => exact h

theorem sound_run (E : Env V) (ops : List (Op V)) : Sound (run E ops) := by
  have : ∀ (ops : List (Op V)) (r : Reg V), Sound r → Sound (ops.foldl (step E) r) := by
    intro ops
    induction ops with
    | nil => intro r h; exact h
    | cons op ops ih => intro r h; exact ih _ (sound_step E r op h)
  refine this ops empty ⟨?_, List.nodup_nil⟩
  intro g data h
  simp [empty, get] at h

/-- C96: after any history of calls, looking up a group (whose members are not themselves group names) succeeds, and gives a dict whose
keys are the group's members and whose values are the objects registered under those names now. -/
theorem group_lookup (E : Env V) (ops : List (Op V)) (limit : Nat) (hl : 2 ≤ limit) (g : Name) (data : List Name)
    (hg : get g (run E ops).groups = some data) (hd : ∀ d ∈ data, get d (run E ops).groups = none) :
    ∃ dict, getItem (run E ops) limit g = .ok (.dict dict) ∧
      ∀ n, get n dict = if n ∈ data then (get n (run E ops).objs).map Val.obj else none := by
  have hs := sound_run E ops
  have hm : ∀ d ∈ data, ∃ v, get d (run E ops).objs = some v := by
    intro d hdm
    rcases hs.members g data hg d hdm with h | h
    · exact Option.isSome_iff_exists.1 h
    · rw [hd d hdm] at h; cases h
  classical
  cases hne : (run E ops).objs with
  | nil =>
    have hnil : data = [] := by
      rcases List.eq_nil_or_concat data with h | ⟨l, a, rfl⟩
      · exact h
      · obtain ⟨v, hv⟩ := hm a (by simp)
        rw [hne] at hv; cases hv
    subst hnil
    obtain ⟨f, rfl⟩ := Nat.exists_eq_add_of_le' hl
    refine ⟨[], ?_, fun n => by simp [get]⟩
    show getItem _ (f + 1 + 1) g = _
    rw [getItem]
    simp [hg, mapE]
  | cons p l =>
    let w : Name → V := fun n => (get n (run E ops).objs).getD p.2
    have hw : ∀ d ∈ data, get d (run E ops).objs = some (w d) := by
      intro d hdm
      obtain ⟨v, hv⟩ := hm d hdm
      simp only [w, hv, Option.getD_some]
    refine ⟨_, getItem_group hl hg hd w hw, fun n => ?_⟩
    rw [get_dictOf]
    split_ifs with hn
    · rw [← hne, hw n hn]; rfl
    · rfl

/-- C96: a name is listed at most once, however often it was registered. -/
theorem names_unique (E : Env V) (ops : List (Op V)) : ((run E ops).objs.map Prod.fst).Nodup := (sound_run E ops).keys

/-- C96: names stay registered: nothing in the API removes one. -/
theorem names_stay (E : Env V) (r : Reg V) (op : Op V) (hk : (r.objs.map Prod.fst).Nodup) : Keeps r.objs (step E r op).objs := by
  cases op with
  | register objects gs =>
    obtain ⟨h1, _⟩ := addAll_spec E.K objects r.objs hk
    simp only [step, register]
    cases ha : addAll E.K objects r.objs with
    | mk res o => rw [ha] at h1; cases res <;> exact h1
  | addToGroup k g => simp only [step, addToGroup]; split <;> exact fun n h => h
  | getObjects a m =>
    cases a with
    | str s =>
      simp only [step, getObjects]
      split_ifs
      · exact fun n h => h
      · exact fun n h => h
      · split <;> exact fun n h => h
      · split <;> exact fun n h => h
    | seq l =>
      simp only [step, getObjects]
      split
      · exact fun n h => h
      · obtain ⟨h1, h2⟩ := addMissing_spec E.K E.dataname E.num m l r.objs hk
        by_cases ht : E.K.typed = true
        · simp only [ht, if_true]
          cases ha : addMissing E.K E.dataname E.num m l r.objs with
          | mk res o => rw [ha] at h1; cases res <;> exact h1
        · simp only [ht]; exact fun n h => h
  | delItem k => exact fun n h => h
  | removeGroup g => exact fun n h => h

/-! ## Registering -/

theorem addAll_ok (K : Kind V) : ∀ (l o : List (Name × V)), (∀ p ∈ l, K.typed = true → K.ok p.2 = true) →
    addAll K l o = (.ok (), l.foldl (fun d p => put p.1 p.2 d) o) := by
  intro l
  induction l with
  | nil => intro o _; rfl
  | cons p l ih =>
    intro o h
    obtain ⟨k, v⟩ := p
    have : (!K.typed || K.ok v) = true := by
      have := h (k, v) (by simp)
      cases ht : K.typed <;> simp_all
    simp only [addAll, this, if_true]
    exact ih _ fun p hp => h p (by simp [hp])

/-- C96: `register(objects,groupname)` of objects of the right type: afterwards every name of the argument has its object, every other name what
it had before; the given groups consist of the names of the argument, the other groups are as before. -/
theorem register_spec (K : Kind V) (r : Reg V) (objects : List (Name × V)) (gs : List Name) (hn : (objects.map Prod.fst).Nodup)
    (hok : ∀ p ∈ objects, K.typed = true → K.ok p.2 = true) :
    ∃ r', register K r objects gs = (.ok (), r') ∧
      (∀ p ∈ objects, get p.1 r'.objs = some p.2) ∧
      (∀ n, n ∉ objects.map Prod.fst → get n r'.objs = get n r.objs) ∧
      (∀ g ∈ gs, get g r'.groups = some (objects.map Prod.fst)) ∧
      (∀ g, g ∉ gs → get g r'.groups = get g r.groups) := by
  refine ⟨_, by rw [register, addAll_ok K objects r.objs hok], ?_, ?_, ?_, ?_⟩
  · intro p hp
    refine (get_foldl_put (Prod.fst : Name × V → Name) Prod.snd objects r.objs p.1 ?_).1 p hp rfl
    intro a ha b hb hab
    have h1 := mem_get hn ha
    have h2 := mem_get hn hb
    rw [hab, h2] at h1
    exact (Option.some.inj h1).symm
  · intro n hnm
    refine (get_foldl_put (Prod.fst : Name × V → Name) Prod.snd objects r.objs n ?_).2 fun a ha hna => hnm (hna ▸ List.mem_map.2 ⟨a, ha, rfl⟩)
    intro a ha b hb hab
    have h1 := mem_get hn ha
    have h2 := mem_get hn hb
    rw [hab, h2] at h1
    exact (Option.some.inj h1).symm
  · intro g hg; simp only [groups_fold, if_pos hg]
  · intro g hg; simp only [groups_fold, if_neg hg]

/-- C96: an object of a wrong type is refused with ValueError and no group is defined; but the objects before it stay registered. -/
theorem register_wrong (K : Kind V) (r : Reg V) (good : List (Name × V)) (k : Name) (v : V) (rest : List (Name × V)) (gs : List Name)
    (ht : K.typed = true) (hok : ∀ p ∈ good, K.ok p.2 = true) (hv : K.ok v = false) :
    register K r (good ++ (k, v) :: rest) gs = (.error .valueError, { r with objs := good.foldl (fun d p => put p.1 p.2 d) r.objs }) := by
  have : ∀ (good o : List (Name × V)), (∀ p ∈ good, K.ok p.2 = true) →
      addAll K (good ++ (k, v) :: rest) o = (.error .valueError, good.foldl (fun d p => put p.1 p.2 d) o) := by
    intro good
    induction good with
    | nil => intro o _; simp [addAll, ht, hv]
    | cons p l ih =>
      intro o h
      obtain ⟨k', v'⟩ := p
      have h1 := h (k', v') (by simp)
      simp only at h1
      simp only [List.cons_append, addAll, h1, Bool.or_true, if_true, List.foldl_cons]
      exact ih _ fun p hp => h p (by simp [hp])
  rw [register, this good r.objs hok]

/-- C96: `addToGroup` of a registered name: the group has the name once, after its other members; nothing else changes. -/
theorem addToGroup_spec (limit : Nat) (hl : 1 ≤ limit) (r : Reg V) (k g : Name) (v : V) (hg : get k r.groups = none) (hv : get k r.objs = some v) :
    ∃ r', addToGroup limit r k g = (.ok (), r') ∧ r'.objs = r.objs ∧ (∀ n, n ≠ g → get n r'.groups = get n r.groups) ∧
      get g r'.groups = some (if k ∈ (get g r.groups).getD [] then (get g r.groups).getD [] else (get g r.groups).getD [] ++ [k]) := by
  refine ⟨{ r with groups := put g (if k ∈ (get g r.groups).getD [] then (get g r.groups).getD [] else (get g r.groups).getD [] ++ [k]) r.groups },
    by simp only [addToGroup, getItem_obj hl hg hv], rfl, fun n hn => ?_, ?_⟩
  · simp only [get_put, if_neg hn]
  · simp only [get_put, if_true]

/-- ... and of an unknown name raises KeyError without creating the group. -/
theorem addToGroup_unknown (limit : Nat) (hl : 1 ≤ limit) (r : Reg V) (k g : Name) (hg : get k r.groups = none) (hv : get k r.objs = none) :
    addToGroup limit r k g = (.error .keyError, r) := by
  rw [addToGroup, unknown_name hl hg hv]

/-! ## `getObjects` -/

/-- C96: without `addmissing`, and for strings, `getObjects` changes nothing. -/
theorem getObjects_pure (K : Kind V) (dn : Name) (num : Nat → Name) (limit : Nat) (r : Reg V) (a : Arg V) (m : Bool)
    (h : m = false ∨ ∃ s, a = .str s) : (getObjects K dn num limit r a m).2 = r := by
  cases a with
  | str s =>
    simp only [getObjects]
    split_ifs
    · rfl
    · rfl
    · split <;> rfl
    · split <;> rfl
  | seq l =>
    have hm : m = false := by
      rcases h with h | ⟨s, h⟩
      · exact h
      · cases h
    subst hm
    have : ∀ (l : List (Req V)) (o : List (Name × V)), (addMissing K dn num false l o).2 = o := by
      intro l
      induction l with
      | nil => intro o; rfl
      | cons q l ih =>
        intro o
        cases q with
        | name n => exact ih o
        | obj v =>
          unfold addMissing
          split_ifs with h1 h2
          · rfl
          · simp at h2
          · exact ih o
    simp only [getObjects]
    split
    · rfl
    · have hthis := this l r.objs
      by_cases ht : K.typed = true
      · simp only [ht, if_true]
        cases ha : addMissing K dn num false l r.objs with
        | mk res o => rw [ha] at hthis; cases res <;> (simp only at hthis; subst hthis; rfl)
      · simp only [ht]; rfl

/-- C96: `'all'` (in any capitalisation) gives all registered objects. -/
theorem getObjects_all (K : Kind V) (dn : Name) (num : Nat → Name) (limit : Nat) (r : Reg V) (s : Name) (hs : lower s = "all".toList) (m : Bool) :
    (getObjects K dn num limit r (.str s) m).1 = .ok (r.objs.map fun p => .obj p.2) := by
  simp only [getObjects, hs, if_true]

/-- C96: the name of one object (not also of a group) gives that object. -/
theorem getObjects_one (K : Kind V) (dn : Name) (num : Nat → Name) (limit : Nat) (hl : 1 ≤ limit) (r : Reg V) (s : Name) (v : V)
    (h1 : lower s ≠ "all".toList) (h2 : ',' ∉ s) (hg : get s r.groups = none) (hv : get s r.objs = some v) (m : Bool) :
    (getObjects K dn num limit r (.str s) m).1 = .ok [.obj v] := by
  simp only [getObjects, if_neg h1, if_neg h2, hv, Option.isSome_some, if_true, getItem_obj hl hg hv, valuesOf]

/-- C96: the name of a group gives the objects of its members in order. -/
theorem getObjects_group (K : Kind V) (dn : Name) (num : Nat → Name) (limit : Nat) (hl : 1 ≤ limit) (r : Reg V) (s : Name) (members : List (Name × V))
    (h1 : lower s ≠ "all".toList) (h2 : ',' ∉ s) (h3 : get s r.objs = none) (hg : get s r.groups = some (members.map Prod.fst))
    (hm : ∀ p ∈ members, get p.1 r.groups = none ∧ get p.1 r.objs = some p.2) (m : Bool) :
    (getObjects K dn num limit r (.str s) m).1 = .ok (members.map fun p => .obj p.2) := by
  simp only [getObjects, if_neg h1, if_neg h2, h3, Option.isSome_none, Bool.false_eq_true, if_false, hg]
  have : ∀ l : List (Name × V), (∀ p ∈ l, get p.1 r.groups = none ∧ get p.1 r.objs = some p.2) →
      mapE (getItem r limit) (l.map Prod.fst) = .ok (l.map fun p => .obj p.2) := by
    intro l
    induction l with
    | nil => intro _; rfl
    | cons p l ih =>
      intro h
      obtain ⟨ha, hb⟩ := h p (by simp)
      simp only [List.map_cons, mapE, getItem_obj hl ha hb, ih fun q hq => h q (by simp [hq])]
  exact this members hm

/-- C96: objects registered together with a group name come back under that name. -/
theorem register_then_get (K : Kind V) (dn : Name) (num : Nat → Name) (limit : Nat) (hl : 1 ≤ limit) (r : Reg V) (objects : List (Name × V)) (g : Name)
    (hn : (objects.map Prod.fst).Nodup) (hok : ∀ p ∈ objects, K.typed = true → K.ok p.2 = true)
    (h1 : lower g ≠ "all".toList) (h2 : ',' ∉ g) (h3 : get g r.objs = none) (h4 : g ∉ objects.map Prod.fst)
    (h5 : ∀ p ∈ objects, get p.1 r.groups = none) (m : Bool) :
    (getObjects K dn num limit (register K r objects [g]).2 (.str g) m).1 = .ok (objects.map fun p => .obj p.2) := by
  obtain ⟨r', hr, ho, hother, hgr, hgo⟩ := register_spec K r objects [g] hn hok
  rw [hr]
  refine getObjects_group K dn num limit hl r' g objects h1 h2 (by rw [hother g h4, h3]) (hgr g (by simp)) ?_ m
  intro p hp
  refine ⟨?_, ho p hp⟩
  rw [hgo p.1 ?_, h5 p hp]
  intro h
  exact h4 (List.mem_singleton.1 h ▸ List.mem_map.2 ⟨p, hp, rfl⟩)

/-- C96: a string that is no name, group or comma list is read character by character (`'ugriz'`). -/
theorem getObjects_chars (K : Kind V) (dn : Name) (num : Nat → Name) (limit : Nat) (hl : 1 ≤ limit) (r : Reg V) (s : Name) (objs : List (Char × V))
    (h1 : lower s ≠ "all".toList) (h2 : ',' ∉ s) (h3 : get s r.objs = none) (hg : get s r.groups = none)
    (hs : strip s = objs.map Prod.fst)
    (hm : ∀ p ∈ objs, get [p.1] r.groups = none ∧ get [p.1] r.objs = some p.2) (m : Bool) :
    (getObjects K dn num limit r (.str s) m).1 = .ok (objs.map fun p => .obj p.2) := by
  simp only [getObjects, if_neg h1, if_neg h2, h3, Option.isSome_none, Bool.false_eq_true, if_false, hg, hs]
  have : ∀ l : List (Char × V), (∀ p ∈ l, get [p.1] r.groups = none ∧ get [p.1] r.objs = some p.2) →
      mapE (fun c => getItem r limit [c]) (l.map Prod.fst) = .ok (l.map fun p => .obj p.2) := by
    intro l
    induction l with
    | nil => intro _; rfl
    | cons p l ih =>
      intro h
      obtain ⟨ha, hb⟩ := h p (by simp)
      simp only [List.map_cons, mapE, getItem_obj hl ha hb, ih fun q hq => h q (by simp [hq])]
  exact this objs hm

theorem splitComma_plain (a : Name) (h : ',' ∉ a) : splitComma a = [a] := by
  induction a with
  | nil => rfl
  | cons c a ih =>
    simp only [List.mem_cons, not_or] at h
    simp only [splitComma, if_neg (Ne.symm h.1), ih h.2]

theorem splitComma_cons (a : Name) (h : ',' ∉ a) (rest : Name) : splitComma (a ++ ',' :: rest) = a :: splitComma rest := by
  induction a with
  | nil => simp [splitComma]
  | cons c a ih =>
    simp only [List.mem_cons, not_or] at h
    simp only [List.cons_append, splitComma, if_neg (Ne.symm h.1), ih h.2]

/-- Names joined by commas. -/
def joinComma : List Name → Name
  | [] => []
  | [a] => a
  | a :: b :: l => a ++ ',' :: joinComma (b :: l)

theorem splitComma_join (l : List Name) (hl : l ≠ []) (h : ∀ a ∈ l, ',' ∉ a) : splitComma (joinComma l) = l := by
  induction l with
  | nil => exact absurd rfl hl
  | cons a l ih =>
    cases l with
    | nil => exact splitComma_plain a (h a (by simp))
    | cons b l =>
      simp only [joinComma]
      rw [splitComma_cons a (h a (by simp)), ih (by simp) fun x hx => h x (by simp [hx])]

theorem mem_comma_join (a b : Name) (l : List Name) : ',' ∈ joinComma (a :: b :: l) := by simp [joinComma]

theorem lower_comma (s : Name) (h : ',' ∈ s) : lower s ≠ "all".toList := by
  intro hs
  have : ',' ∈ lower s := List.mem_map.2 ⟨',', h, by decide⟩
  rw [hs] at this
  revert this; decide

/-- C96: names separated by commas, each with any white space around it: the objects in the order asked for. -/
theorem getObjects_list (K : Kind V) (dn : Name) (num : Nat → Name) (limit : Nat) (hl : 1 ≤ limit) (r : Reg V) (a b : Name × V) (l : List (Name × V))
    (h : ∀ p ∈ a :: b :: l, ',' ∉ p.1 ∧ get (strip p.1) r.groups = none ∧ get (strip p.1) r.objs = some p.2) (m : Bool) :
    (getObjects K dn num limit r (.str (joinComma ((a :: b :: l).map Prod.fst))) m).1 = .ok ((a :: b :: l).map fun p => .obj p.2) := by
  have hc : ',' ∈ joinComma ((a :: b :: l).map Prod.fst) := mem_comma_join _ _ _
  simp only [getObjects, if_neg (lower_comma _ hc), if_pos hc]
  rw [splitComma_join _ (by simp) (by
    intro n hn
    obtain ⟨p, hp, rfl⟩ := List.mem_map.1 hn
    exact (h p hp).1)]
  have : ∀ l : List (Name × V), (∀ p ∈ l, ',' ∉ p.1 ∧ get (strip p.1) r.groups = none ∧ get (strip p.1) r.objs = some p.2) →
      mapE (fun t => getItem r limit (strip t)) (l.map Prod.fst) = .ok (l.map fun p => .obj p.2) := by
    intro l
    induction l with
    | nil => intro _; rfl
    | cons p l ih =>
      intro h
      obtain ⟨_, ha, hb⟩ := h p (by simp)
      simp only [List.map_cons, mapE, getItem_obj hl ha hb, ih fun q hq => h q (by simp [hq])]
  exact this _ h

/-! ## `addmissing` -/

theorem addMissing_named (K : Kind V) (dn : Name) (num : Nat → Name) : ∀ (l : List (Req V)) (o o' : List (Name × V)),
    (o.map Prod.fst).Nodup → (∀ v, Req.obj v ∈ l → (K.name v).isSome) → addMissing K dn num true l o = (.ok (), o') →
    (∀ n v, get n o = some v → get n o' = some v) ∧
    (∀ v, Req.obj v ∈ l → K.ok v = true ∧ (∃ n, get n o' = some v) ∧ (v ∉ o.map Prod.snd → ∀ n, K.name v = some n → get n o' = some v)) := by
  intro l
  induction l with
  | nil =>
    intro o o' _ _ h
    simp only [addMissing, Prod.mk.injEq, true_and] at h
    subst h
    exact ⟨fun n v h => h, fun v hv => by cases hv⟩
  | cons q l ih =>
    intro o o' ho hn h
    have hn' : ∀ v, Req.obj v ∈ l → (K.name v).isSome := fun v hv => hn v (by simp [hv])
    cases q with
    | name n =>
      simp only [addMissing] at h
      obtain ⟨h1, h2⟩ := ih o o' ho hn' h
      exact ⟨h1, fun v hv => h2 v (by simpa using hv)⟩
    | obj w =>
      obtain ⟨nw, hnw⟩ := Option.isSome_iff_exists.1 (hn w (by simp))
      simp only [addMissing, hnw] at h
      by_cases hk : K.ok w = false
      · rw [if_pos hk] at h; simp at h
      rw [if_neg hk] at h
      have hk' : K.ok w = true := by simpa using hk
      by_cases hmem : (o.map Prod.snd).contains w = true
      · simp only [hmem, Bool.not_true, Bool.and_false, Bool.false_eq_true, if_false] at h
        obtain ⟨h1, h2⟩ := ih o o' ho hn' h
        refine ⟨h1, fun v hv => ?_⟩
        rcases List.mem_cons.1 hv with hv | hv
        · cases hv
          have hm : w ∈ o.map Prod.snd := by simpa using hmem
          refine ⟨hk', ?_, fun hnm => absurd hm hnm⟩
          obtain ⟨⟨n, v⟩, hp, rfl⟩ := List.mem_map.1 hm
          exact ⟨n, h1 n v (mem_get ho hp)⟩
        · exact h2 v hv
      · simp only [hmem, Bool.not_false, Bool.and_true, if_true] at h
        by_cases hs : (get nw o).isSome = true
        · rw [if_pos hs] at h; simp at h
        rw [if_neg hs] at h
        have hnone : get nw o = none := by simpa using hs
        obtain ⟨h1, h2⟩ := ih (put nw w o) o' (put_keys nw w o ho).1 hn' h
        have hw : get nw o' = some w := h1 nw w (by rw [get_put, if_pos rfl])
        refine ⟨fun n v hv => h1 n v ?_, fun v hv => ?_⟩
        · rw [get_put, if_neg ?_]
          · exact hv
          · rintro rfl; rw [hnone] at hv; cases hv
        · rcases List.mem_cons.1 hv with hv | hv
          · cases hv
            refine ⟨hk', ⟨nw, hw⟩, fun _ n hn => ?_⟩
            rw [hnw] at hn; cases hn; exact hw
          · obtain ⟨h3, h4, h5⟩ := h2 v hv
            refine ⟨h3, h4, fun hvo n hnn => ?_⟩
            by_cases hvw : v = w
            · subst hvw; rw [hnw] at hnn; cases hnn; exact hw
            · refine h5 ?_ n hnn
              intro hm
              obtain ⟨⟨n', v'⟩, hp, rfl⟩ := List.mem_map.1 hm
              have := mem_get (put_keys nw w o ho).1 hp
              rw [get_put] at this
              split_ifs at this with hc
              · simp only [Option.some.injEq] at this; exact hvw this.symm
              · exact hvo (List.mem_map.2 ⟨_, get_mem this, rfl⟩)

/-- C96: `getObjects` of a sequence with `addmissing`, in a registry with a type, if all objects of the sequence have names and the call
succeeds: the result has the objects asked for in order, everything registered stays as it was, and every object of the sequence is
registered, under its own name if it was not registered before. -/
theorem addmissing_spec (K : Kind V) (dn : Name) (num : Nat → Name) (limit : Nat) (r r' : Reg V) (l : List (Req V)) (res : List (Val V))
    (ht : K.typed = true) (hk : (r.objs.map Prod.fst).Nodup) (hn : ∀ v, Req.obj v ∈ l → (K.name v).isSome)
    (h : getObjects K dn num limit r (.seq l) true = (.ok res, r')) :
    mapE (getReq limit r) l = .ok res ∧ r'.groups = r.groups ∧ (∀ n v, get n r.objs = some v → get n r'.objs = some v) ∧
    (∀ v, Req.obj v ∈ l → K.ok v = true ∧ (∃ n, get n r'.objs = some v) ∧
      (v ∉ r.objs.map Prod.snd → ∀ n, K.name v = some n → get n r'.objs = some v)) := by
  simp only [getObjects, ht, if_true] at h
  cases hm : mapE (getReq limit r) l with
  | error e => rw [hm] at h; simp at h
  | ok objs =>
    rw [hm] at h
    simp only at h
    cases ha : addMissing K dn num true l r.objs with
    | mk x o =>
      rw [ha] at h
      cases x with
      | error e => simp at h
      | ok u =>
        simp only [Prod.mk.injEq, Except.ok.injEq] at h
        obtain ⟨rfl, rfl⟩ := h
        exact ⟨rfl, rfl, addMissing_named K dn num l r.objs o hk hn ha⟩

/-- A sequence of known names and objects gives exactly those objects in order, whatever `addmissing` is. -/
theorem getObjects_seq (K : Kind V) (dn : Name) (num : Nat → Name) (limit : Nat) (hl : 1 ≤ limit) (r : Reg V) (l : List (Req V × V))
    (h : ∀ p ∈ l, (p.1 = .obj p.2 ∧ K.ok p.2 = true) ∨ ∃ n, p.1 = .name n ∧ get n r.groups = none ∧ get n r.objs = some p.2) :
    getObjects K dn num limit r (.seq (l.map Prod.fst)) false = (.ok (l.map fun p => .obj p.2), r) := by
  have h1 : mapE (getReq limit r) (l.map Prod.fst) = .ok (l.map fun p => .obj p.2) := by
    induction l with
    | nil => rfl
    | cons p l ih =>
      have hp : getReq limit r p.1 = .ok (.obj p.2) := by
        rcases h p (by simp) with ⟨h, _⟩ | ⟨n, h, hg, ho⟩
        · rw [h]; rfl
        · rw [h]; exact getItem_obj hl hg ho
      simp only [List.map_cons, mapE, hp, ih fun q hq => h q (by simp [hq])]
  have h2 : ∀ l : List (Req V × V), (∀ p ∈ l, (p.1 = .obj p.2 ∧ K.ok p.2 = true) ∨ ∃ n, p.1 = .name n ∧ get n r.groups = none ∧ get n r.objs = some p.2) →
      ∀ o, addMissing K dn num false (l.map Prod.fst) o = (.ok (), o) := by
    intro l
    induction l with
    | nil => intro _ o; rfl
    | cons p l ih =>
      intro h o
      have := ih (fun q hq => h q (by simp [hq])) o
      rcases h p (by simp) with ⟨h, hok⟩ | ⟨n, h, _⟩
      · simp only [List.map_cons, h, addMissing, hok, Bool.true_eq_false, if_false, Bool.false_and, Bool.false_eq_true, this]
      · simp only [List.map_cons, h, addMissing, this]
  simp only [getObjects, h1]
  by_cases ht : K.typed = true
  · simp only [ht, if_true, h2 l h r.objs]
  · simp only [ht]; rfl

/-! ## Failures -/

/-- C96 fails for nameless objects (no `name` attribute): if no name `dataname##` is registered the search never ends. -/
theorem nameless_loops (K : Kind V) (dn : Name) (num : Nat → Name) (limit : Nat) (r : Reg V) (v : V) (ht : K.typed = true) (hok : K.ok v = true)
    (hnn : K.name v = none) (hv : v ∉ r.objs.map Prod.snd) (hfree : ∀ j, get (dn ++ num (j + 1)) r.objs = none) :
    (getObjects K dn num limit r (.seq [.obj v]) true).1 = .error .loopsForever := by
  have : autoName dn num r.objs = none := by
    unfold autoName
    rw [dif_neg]
    rintro ⟨j, hj⟩
    rw [hfree j] at hj; cases hj
  simp [getObjects, mapE, getReq, ht, addMissing, hok, hv, hnn, this]

/-- ... and otherwise the new object replaces the registered one with the lowest number. -/
theorem nameless_replaces (K : Kind V) (dn : Name) (num : Nat → Name) (limit : Nat) (r : Reg V) (v w : V) (ht : K.typed = true) (hok : K.ok v = true)
    (hnn : K.name v = none) (hv : v ∉ r.objs.map Prod.snd) (j : Nat) (hj : get (dn ++ num (j + 1)) r.objs = some w)
    (hmin : ∀ i < j, get (dn ++ num (i + 1)) r.objs = none) :
    ∃ r', getObjects K dn num limit r (.seq [.obj v]) true = (.ok [.obj v], r') ∧ get (dn ++ num (j + 1)) r'.objs = some v := by
  have hex : ∃ j, (get (dn ++ num (j + 1)) r.objs).isSome = true := ⟨j, by rw [hj]; rfl⟩
  have : autoName dn num r.objs = some (dn ++ num (j + 1)) := by
    classical
    unfold autoName
    rw [dif_pos hex]
    have : Nat.find hex = j := by
      rw [Nat.find_eq_iff]
      refine ⟨by rw [hj]; rfl, fun i hi => by rw [hmin i hi]; simp⟩
    rw [this]
  refine ⟨{ r with objs := put (dn ++ num (j + 1)) v r.objs }, ?_, by simp [get_put]⟩
  simp [getObjects, mapE, getReq, ht, addMissing, hok, hv, hnn, this]

/-- C96 fails if a group has the name of one of its members: neither can be read any more (RuntimeError), whatever the recursion limit. -/
theorem self_named_group (limit : Nat) (r : Reg V) (g : Name) (rest : List Name) (h : get g r.groups = some (g :: rest)) :
    getItem r limit g = .error .runtimeError := by
  induction limit with
  | zero => rfl
  | succ f ih => rw [getItem]; simp only [h, mapE, ih, pair]

/-- C96 fails for removal: deleting an object or a group always raises TypeError and changes nothing. -/
theorem cannot_remove (r : Reg V) (n : Name) : delItem r n = (.error .typeError, r) ∧ removeGroup r n = (.error .typeError, r) := ⟨rfl, rfl⟩

/-! ## Examples -/

/-- A registry of two numbers `u`, `g` in the group `sdss`. -/
def sample : Reg Nat := (register ⟨true, fun n => n < 100, fun _ => none⟩ empty [(['u'], 1), (['g'], 2)] ["sdss".toList]).2

example : getItem sample 5 ['u'] = .ok (.obj 1) := getItem_obj (by decide) (by decide) (by decide)
example : (getObjects ⟨true, fun n => n < 100, fun _ => none⟩ "bands".toList (fun _ => []) 5 sample (.str "sdss".toList) false).1 =
    .ok [.obj 1, .obj 2] :=
  register_then_get _ _ _ 5 (by decide) empty [(['u'], 1), (['g'], 2)] "sdss".toList (by decide) (by decide) (by decide) (by decide) (by decide)
    (by decide) (by decide) false
example : (getObjects ⟨true, fun n => n < 100, fun _ => none⟩ "bands".toList (fun _ => []) 5 sample (.str "gu".toList) false).1 =
    .ok [.obj 2, .obj 1] :=
  getObjects_chars _ _ _ 5 (by decide) sample "gu".toList [('g', 2), ('u', 1)] (by decide) (by decide) (by decide) (by decide) (by decide)
    (by decide) false
example : (getObjects ⟨true, fun n => n < 100, fun _ => none⟩ "bands".toList (fun _ => []) 5 sample (.str "g, u,g".toList) false).1 =
    .ok [.obj 2, .obj 1, .obj 2] :=
  getObjects_list _ _ _ 5 (by decide) sample (['g'], 2) ([' ', 'u'], 1) [(['g'], 2)] (by decide) false
example : (getObjects ⟨true, fun n => n < 100, fun _ => some ['z']⟩ "bands".toList (fun _ => []) 5 sample (.seq [.obj 7, .name ['u']]) true) =
    (.ok [.obj 7, .obj 1], ⟨[(['u'], 1), (['g'], 2), (['z'], 7)], [("sdss".toList, [['u'], ['g']])]⟩) := rfl
/-- The band registry: registering band `u` in a group `u`. -/
example : ∀ limit, getItem (register ⟨true, fun _ : Nat => true, fun _ => none⟩ empty [(['u'], 1)] [['u']]).2 limit ['u'] = .error .runtimeError :=
  fun limit => self_named_group limit _ _ [] (by decide)

end Verif.Registry
