import Mathlib.Tactic.SplitIfs
import Mathlib.Data.List.Basic

/-!
# Trees of configuration sections: `merge`, `dict`, `walk` (astropysics/external/configobj.py 584-640, 770-825, 855-937) (C164)

A section is a node with the values of the keys listed in `scalars` and in `sections`, each in order, and with its identity: an existing
`Section` object, an ordinary dictionary, or a section made in the course of the operation.  Values are read without interpolation (with
it, `merge` and `dict` get what reading gives, see `ConfigInterp`); comments and defaults are left out (see `ConfigSection`).  `L` are the
values that are no dictionaries.
-/

namespace Verif.ConfigMerge

variable {L : Type}

/-- What a dictionary-like value is. -/
inductive Ident
  | obj (n : Nat)
  | plain
  | fresh
  deriving DecidableEq

mutual
/-- A value: a scalar (or list), or a section or dictionary with the entries listed as scalars and those listed as sections. -/
inductive Val (L : Type)
  | leaf (x : L)
  | node (i : Ident) (scal sect : Ents L)
/-- Entries in order. -/
inductive Ents (L : Type)
  | nil
  | cons (k : String) (v : Val L) (rest : Ents L)
end

namespace Ents

/-- `a` followed by `b`. -/
def append : Ents L → Ents L → Ents L
  | nil, b => b
  | cons k v r, b => cons k v (r.append b)

/-- The value of a key. -/
def look : Ents L → String → Option (Val L)
  | nil, _ => none
  | cons k v r, k' => if k = k' then some v else r.look k'

/-- The key gets another value in its place. -/
def replace : Ents L → String → Val L → Ents L
  | nil, _, _ => nil
  | cons k v r, k', w => if k = k' then cons k w r else cons k v (r.replace k' w)

def keys : Ents L → List String
  | nil => []
  | cons k _ r => k :: r.keys

/-- The entries whose value is no section. -/
def leaves : Ents L → Ents L
  | nil => nil
  | cons k (.leaf x) r => cons k (.leaf x) r.leaves
  | cons _ (.node ..) r => r.leaves

/-- The entries whose value is a section. -/
def nodes : Ents L → Ents L
  | nil => nil
  | cons _ (.leaf _) r => r.nodes
  | cons k (.node i a b) r => cons k (.node i a b) r.nodes

end Ents

/-- The entries of a section: those listed as scalars and those listed as sections. -/
abbrev Body (L : Type) := Ents L × Ents L

/-- `self[key]`. -/
def get (p : Body L) (k : String) : Option (Val L) :=
  match p.1.look k with
  | some v => some v
  | none => p.2.look k

mutual
/-- What `__setitem__` makes of a value (configobj.py 610-628): a `Section` is kept, a dictionary is turned into a new section. -/
def adopt : Val L → Val L
  | .leaf x => .leaf x
  | .node .plain sc se => .node .fresh ((adoptE sc).append (adoptE se)).leaves ((adoptE sc).append (adoptE se)).nodes
  | .node (.obj n) sc se => .node (.obj n) sc se
  | .node .fresh sc se => .node .fresh sc se
def adoptE : Ents L → Ents L
  | .nil => .nil
  | .cons k v r => .cons k (adopt v) (adoptE r)
end

/-- `dict.__setitem__` and the lists (configobj.py 610-640): a key already there stays in the list it is in. -/
def setAt (p : Body L) (k : String) (v : Val L) : Body L :=
  match p.1.look k with
  | some _ => (p.1.replace k v, p.2)
  | none =>
    match p.2.look k with
    | some _ => (p.1, p.2.replace k v)
    | none =>
      match v with
      | .leaf x => (p.1.append (.cons k (.leaf x) .nil), p.2)
      | .node i a b => (p.1, p.2.append (.cons k (.node i a b) .nil))

mutual
/-- The new value of a key, given the present one (configobj.py 819-824). -/
def mergeVal : Val L → Option (Val L) → Val L
  | .leaf x, _ => .leaf x
  | .node _ bsc bse, some (.node i sc se) => .node i (mergeEnts bse (mergeEnts bsc (sc, se))).1 (mergeEnts bse (mergeEnts bsc (sc, se))).2
  | .node bi bsc bse, _ => adopt (.node bi bsc bse)
/-- `merge`, configobj.py 798-824, over the items of the other dictionary. -/
def mergeEnts : Ents L → Body L → Body L
  | .nil, p => p
  | .cons k v rest, p => mergeEnts rest (setAt p k (mergeVal v (get p k)))
end

/-- `self.merge(indict)` for a section `self` with entries `p`: `items()` lists the scalars, then the sections. -/
def merge (p : Body L) (b : Body L) : Body L := mergeEnts (b.1.append b.2) p

mutual
/-- `dict()`, configobj.py 770-795. -/
def toDict : Val L → Val L
  | .leaf x => .leaf x
  | .node _ sc se => .node .plain ((toDictE sc).append (toDictE se)) .nil
def toDictE : Ents L → Ents L
  | .nil => .nil
  | .cons k v r => .cons k (toDict v) (toDictE r)
end

/-- The result dictionary of `walk`. -/
inductive Out (R : Type)
  | val (r : R)
  | no                                   -- False
  | sub (entries : List (String × Out R))

/-- An exception: of the function, or the AttributeError for an entry listed as a section that is none. -/
inductive WErr (E : Type)
  | fn (e : E)
  | attr

/-- The call on a whole section whose exception would be raised: `call_on_sections` and `raise_errors`, configobj.py 921-930. -/
def pre {R E : Type} (f : Val L → String → Except E R) (raise call : Bool) (self : Val L) (k : String) : Option E :=
  if call && raise then (match f self k with | .error e => some e | .ok _ => none) else none

/-- The result for a scalar, configobj.py 905-917. -/
def scalarOut {R E : Type} (f : Val L → String → Except E R) (raise : Bool) (self : Val L) (k : String) : Except (WErr E) (Out R) :=
  match f self k with
  | .ok r => .ok (.val r)
  | .error e => if raise then .error (.fn e) else .ok .no

mutual
/-- The two loops of `walk`, configobj.py 900-937, for a function that does not change the section `self`; `scalar` tells which list is
being worked on. -/
def walkE {R E : Type} (f : Val L → String → Except E R) (raise call : Bool) (self : Val L) (scalar : Bool) : Ents L → Except (WErr E) (List (String × Out R))
  | .nil => .ok []
  | .cons k v r =>
    match walkV f raise call self scalar k v with
    | .error e => .error e
    | .ok o =>
      match walkE f raise call self scalar r with
      | .error e => .error e
      | .ok os => .ok ((k, o) :: os)
/-- One entry. -/
def walkV {R E : Type} (f : Val L → String → Except E R) (raise call : Bool) (self : Val L) (scalar : Bool) (k : String) : Val L → Except (WErr E) (Out R)
  | .leaf _ =>
    if scalar then scalarOut f raise self k
    else
      match pre f raise call self k with
      | some e => .error (.fn e)
      | none => .error .attr
  | .node i sc se =>
    if scalar then scalarOut f raise self k
    else
      match pre f raise call self k with
      | some e => .error (.fn e)
      | none =>
        match walkE f raise call (.node i sc se) true sc with
        | .error e => .error e
        | .ok a =>
          match walkE f raise call (.node i sc se) false se with
          | .error e => .error e
          | .ok b => .ok (.sub (a ++ b))
end

/-- `section.walk(f,...)`. -/
def walk {R E : Type} (f : Val L → String → Except E R) (raise call : Bool) (i : Ident) (p : Body L) : Except (WErr E) (List (String × Out R)) :=
  match walkE f raise call (.node i p.1 p.2) true p.1 with
  | .error e => .error e
  | .ok a =>
    match walkE f raise call (.node i p.1 p.2) false p.2 with
    | .error e => .error e
    | .ok b => .ok (a ++ b)

/-! ## Specification -/

/-- The value at a path of keys. -/
def at' : Val L → List String → Option (Val L)
  | v, [] => some v
  | .leaf _, _ :: _ => none
  | .node _ sc se, k :: ks =>
    match get (sc, se) k with
    | some v => at' v ks
    | none => none

/-- The setting at a path. -/
def leafAt (v : Val L) (ks : List String) : Option L :=
  match at' v ks with
  | some (.leaf x) => some x
  | _ => none

/-- The value at the path is a section. -/
def nodeAt (v : Val L) (ks : List String) : Prop := ∃ i sc se, at' v ks = some (.node i sc se)

mutual
/-- No key occurs twice in a section. -/
def Uniq : Val L → Prop
  | .leaf _ => True
  | .node _ sc se => (sc.append se).keys.Nodup ∧ UniqE sc ∧ UniqE se
def UniqE : Ents L → Prop
  | .nil => True
  | .cons _ v r => Uniq v ∧ UniqE r
end

mutual
/-- Scalars are listed as scalars and sections as sections. -/
def Sane : Val L → Prop
  | .leaf _ => True
  | .node _ sc se => SaneS sc ∧ SaneN se
def SaneS : Ents L → Prop
  | .nil => True
  | .cons _ (.leaf _) r => SaneS r
  | .cons _ (.node ..) _ => False
def SaneN : Ents L → Prop
  | .nil => True
  | .cons _ (.leaf _) _ => False
  | .cons _ (.node i a b) r => Sane (.node i a b) ∧ SaneN r
end

mutual
/-- The value contains no `Section` object. -/
def NoObj : Val L → Prop
  | .leaf _ => True
  | .node i sc se => i = .plain ∧ NoObjE sc ∧ NoObjE se
def NoObjE : Ents L → Prop
  | .nil => True
  | .cons _ v r => NoObj v ∧ NoObjE r
end

/-! ## Entries -/

theorem look_append (a b : Ents L) (k : String) : (a.append b).look k = (match a.look k with | some v => some v | none => b.look k) := by
  induction a using Ents.rec (motive_1 := fun _ => True) with
  | leaf => trivial
  | node => trivial
  | nil => rfl
  | cons k' v r _ ih =>
    simp only [Ents.append, Ents.look]
    split_ifs
    · rfl
    · exact ih

theorem get_eq (p : Body L) (k : String) : get p k = (p.1.append p.2).look k := by
  rw [look_append]; rfl

theorem keys_append (a b : Ents L) : (a.append b).keys = a.keys ++ b.keys := by
  induction a using Ents.rec (motive_1 := fun _ => True) with
  | leaf => trivial
  | node => trivial
  | nil => rfl
  | cons k' v r _ ih => simp only [Ents.append, Ents.keys, ih, List.cons_append]

theorem look_none (a : Ents L) (k : String) : a.look k = none ↔ k ∉ a.keys := by
  induction a using Ents.rec (motive_1 := fun _ => True) with
  | leaf => trivial
  | node => trivial
  | nil => simp [Ents.look, Ents.keys]
  | cons k' v r _ ih =>
    simp only [Ents.look, Ents.keys, List.mem_cons, not_or]
    split_ifs with h
    · simp [h]
    · rw [ih]; simp [Ne.symm h]

theorem look_replace (a : Ents L) (k k' : String) (w : Val L) :
    (a.replace k w).look k' = if k = k' ∧ (a.look k).isSome then some w else a.look k' := by
  induction a using Ents.rec (motive_1 := fun _ => True) with
  | leaf => trivial
  | node => trivial
  | nil => simp [Ents.replace, Ents.look]
  | cons k0 v r _ ih =>
    simp only [Ents.replace, Ents.look]
    by_cases h : k0 = k
    · subst h
      simp only [if_true, Ents.look, Option.isSome_some, and_true]
      split_ifs <;> rfl
    · simp only [if_neg h, Ents.look]
      by_cases h2 : k0 = k'
      · subst h2
        simp [Ne.symm h]
      · simp only [if_neg h2]; exact ih

theorem keys_replace (a : Ents L) (k : String) (w : Val L) : (a.replace k w).keys = a.keys := by
  induction a using Ents.rec (motive_1 := fun _ => True) with
  | leaf => trivial
  | node => trivial
  | nil => rfl
  | cons k0 v r _ ih =>
    simp only [Ents.replace]
    split_ifs
    · rfl
    · simp only [Ents.keys, ih]

/-- An assignment sets that key and no other. -/
theorem get_setAt (p : Body L) (k k' : String) (v : Val L) : get (setAt p k v) k' = if k = k' then some v else get p k' := by
  unfold setAt
  cases h1 : p.1.look k with
  | some w =>
    simp only [get, look_replace, h1, Option.isSome_some, and_true]
    by_cases h : k = k'
    · simp [h]
    · simp [h]
  | none =>
    cases h2 : p.2.look k with
    | some w =>
      simp only [get, look_replace, h2, Option.isSome_some, and_true]
      by_cases h : k = k'
      · subst h; simp [h1]
      · simp [h]
    | none =>
      cases v with
      | leaf x =>
        simp only [get, look_append, Ents.look]
        by_cases h : k = k'
        · subst h; simp [h1]
        · cases p.1.look k' <;> simp [h]
      | node i a b =>
        simp only [get, look_append, Ents.look]
        by_cases h : k = k'
        · subst h; simp [h1, h2]
        · cases p.1.look k' <;> cases p.2.look k' <;> simp [h]

/-- After a merge every key of the other dictionary has its merged value, the others are as before. -/
theorem get_mergeEnts (b : Ents L) (hb : b.keys.Nodup) (p : Body L) (k : String) :
    get (mergeEnts b p) k = (match b.look k with | some v => some (mergeVal v (get p k)) | none => get p k) := by
  induction b using Ents.rec (motive_1 := fun _ => True) generalizing p with
  | leaf => trivial
  | node => trivial
  | nil => simp [mergeEnts, Ents.look]
  | cons k0 v r _ ih =>
    simp only [Ents.keys, List.nodup_cons] at hb
    simp only [mergeEnts, Ents.look]
    rw [ih hb.2, get_setAt]
    by_cases h : k0 = k
    · subst h
      have : r.look k0 = none := (look_none r k0).2 hb.1
      simp [this]
    · simp [h]

theorem mergeEnts_append (a b : Ents L) (p : Body L) : mergeEnts (a.append b) p = mergeEnts b (mergeEnts a p) := by
  induction a using Ents.rec (motive_1 := fun _ => True) generalizing p with
  | leaf => trivial
  | node => trivial
  | nil => rfl
  | cons k0 v r _ ih =>
    show mergeEnts (.cons k0 v (r.append b)) p = mergeEnts b (mergeEnts (.cons k0 v r) p)
    simp only [mergeEnts]
    exact ih _

theorem mergeVal_nodes (bi i : Ident) (bsc bse sc se : Ents L) :
    mergeVal (.node bi bsc bse) (some (.node i sc se)) = .node i (merge (sc, se) (bsc, bse)).1 (merge (sc, se) (bsc, bse)).2 := by
  simp only [mergeVal, merge, mergeEnts_append]

/-! ## Adopted dictionaries -/

theorem leaves_nodes_look (a : Ents L) (ha : a.keys.Nodup) (k : String) : get (a.leaves, a.nodes) k = a.look k := by
  have key : ∀ a : Ents L, (∀ k', k' ∈ a.leaves.keys → k' ∈ a.keys) ∧ (∀ k', k' ∈ a.nodes.keys → k' ∈ a.keys) := by
    intro a
    induction a using Ents.rec (motive_1 := fun _ => True) with
    | leaf => trivial
    | node => trivial
    | nil => exact ⟨fun _ h => h, fun _ h => h⟩
    | cons k0 v r _ ih =>
      cases v with
      | leaf x =>
        simp only [Ents.leaves, Ents.nodes, Ents.keys, List.mem_cons]
        exact ⟨fun k' h => h.imp id (ih.1 k'), fun k' h => Or.inr (ih.2 k' h)⟩
      | node i x y =>
        simp only [Ents.leaves, Ents.nodes, Ents.keys, List.mem_cons]
        exact ⟨fun k' h => Or.inr (ih.1 k' h), fun k' h => h.imp id (ih.2 k')⟩
  induction a using Ents.rec (motive_1 := fun _ => True) with
  | leaf => trivial
  | node => trivial
  | nil => rfl
  | cons k0 v r _ ih =>
    simp only [Ents.keys, List.nodup_cons] at ha
    have ih := ih ha.2
    unfold get at ih ⊢
    cases v with
    | leaf x =>
      simp only [Ents.leaves, Ents.nodes, Ents.look] at ih ⊢
      by_cases h : k0 = k
      · simp [h]
      · simp only [if_neg h]; exact ih
    | node i x y =>
      simp only [Ents.leaves, Ents.nodes, Ents.look] at ih ⊢
      by_cases h : k0 = k
      · subst h
        have : r.leaves.look k0 = none := (look_none _ _).2 (fun hm => ha.1 ((key r).1 k0 hm))
        simp [this]
      · simp only [if_neg h]; exact ih

theorem adoptE_append (a b : Ents L) : adoptE (a.append b) = (adoptE a).append (adoptE b) := by
  induction a using Ents.rec (motive_1 := fun _ => True) with
  | leaf => trivial
  | node => trivial
  | nil => rfl
  | cons k v r _ ih =>
    show adoptE (.cons k v (r.append b)) = (adoptE (.cons k v r)).append (adoptE b)
    simp only [adoptE, Ents.append, ih]

theorem adoptE_keys (a : Ents L) : (adoptE a).keys = a.keys := by
  induction a using Ents.rec (motive_1 := fun _ => True) with
  | leaf => trivial
  | node => trivial
  | nil => rfl
  | cons k v r _ ih => simp only [adoptE, Ents.keys, ih]

theorem adoptE_look (a : Ents L) (k : String) : (adoptE a).look k = (a.look k).map adopt := by
  induction a using Ents.rec (motive_1 := fun _ => True) with
  | leaf => trivial
  | node => trivial
  | nil => rfl
  | cons k' v r _ ih =>
    simp only [adoptE, Ents.look]
    split_ifs
    · rfl
    · exact ih

/-- The settings of an adopted value are the same. -/
theorem leafAt_adopt (v : Val L) : Uniq v → ∀ ks, leafAt (adopt v) ks = leafAt v ks ∧ (nodeAt (adopt v) ks ↔ nodeAt v ks) := by
  induction v using Val.rec (motive_2 := fun e => UniqE e → ∀ k v, e.look k = some v → ∀ ks, leafAt (adopt v) ks = leafAt v ks ∧ (nodeAt (adopt v) ks ↔ nodeAt v ks)) with
  | leaf x => intro _ ks; exact ⟨rfl, Iff.rfl⟩
  | nil => rename_i hu k v hl ks; cases hl
  | cons k0 v0 r ihv ihr =>
    rename_i hu k v hl ks
    obtain ⟨h1, h2⟩ := hu
    simp only [Ents.look] at hl
    split_ifs at hl with h
    · cases hl; exact ihv h1 ks
    · exact ihr h2 k v hl ks
  | node i sc se ih1 ih2 =>
    rintro ⟨h0, h1, h2⟩ ks
    cases i with
    | obj n => exact ⟨rfl, Iff.rfl⟩
    | fresh => exact ⟨rfl, Iff.rfl⟩
    | plain =>
      cases ks with
      | nil => exact ⟨rfl, ⟨fun _ => ⟨_, _, _, rfl⟩, fun _ => ⟨_, _, _, rfl⟩⟩⟩
      | cons k ks =>
        have e : get ((((adoptE sc).append (adoptE se)).leaves, ((adoptE sc).append (adoptE se)).nodes)) k = (get (sc, se) k).map adopt := by
          rw [leaves_nodes_look, ← adoptE_append, adoptE_look, get_eq]
          rw [← adoptE_append, adoptE_keys]; exact h0
        unfold leafAt nodeAt
        simp only [adopt, at', e]
        cases hg : get (sc, se) k with
        | none => simp
        | some v =>
          simp only [Option.map_some]
          have hv : ∀ ks, leafAt (adopt v) ks = leafAt v ks ∧ (nodeAt (adopt v) ks ↔ nodeAt v ks) := by
            unfold get at hg
            simp only at hg
            cases hs : sc.look k with
            | some w => rw [hs] at hg; cases hg; exact ih1 h1 k v hs
            | none => rw [hs] at hg; exact ih2 h2 k v hg
          exact hv ks

/-! ## C164 -/

/-- A value of `a` survives a merge of `b`: along its path `b` has nothing, or has sections where `a` has sections. -/
def Survives (a b : Val L) (ks : List String) : Prop :=
  ∀ q, q <+: ks → q ≠ [] → at' b q = none ∨ (nodeAt b q ∧ nodeAt a q)

/-- The merged tree as a value. -/
def merged (i : Ident) (p b : Body L) : Val L := .node i (merge p b).1 (merge p b).2

theorem get_merge (p b : Body L) (hb : (b.1.append b.2).keys.Nodup) (k : String) :
    get (merge p b) k = (match get b k with | some v => some (mergeVal v (get p k)) | none => get p k) := by
  rw [merge, get_mergeEnts _ hb, get_eq b]

theorem survives_nil_iff (a b : Val L) : Survives a b [] := by
  intro q hq hn
  exact absurd (List.prefix_nil.1 hq) hn

theorem get_pair (p : Body L) (k : String) : get (p.1, p.2) k = get p k := rfl

theorem at'_cons (i : Ident) (sc se : Ents L) (k : String) (ks : List String) :
    at' (.node i sc se) (k :: ks) = (match get (sc, se) k with | some v => at' v ks | none => none) := rfl

theorem leafAt_cons (i : Ident) (sc se : Ents L) (k : String) (ks : List String) :
    leafAt (.node i sc se) (k :: ks) = (match get (sc, se) k with | some v => leafAt v ks | none => none) := by
  unfold leafAt
  rw [at'_cons]
  cases get (sc, se) k <;> rfl

theorem nodeAt_nil_leaf (x : L) : ¬ nodeAt (.leaf x) [] := by rintro ⟨i, a, b, h⟩; cases h
theorem at'_leaf_cons (x : L) (k : String) (ks : List String) : at' (.leaf x : Val L) (k :: ks) = none := rfl

/-- The settings after `a.merge(b)`: those of `b`, and those of `a` that are not in the way of one of `b`. -/
theorem merge_settings (b : Val L) : Uniq b → ∀ (bi : Ident) (bsc bse : Ents L), b = .node bi bsc bse →
    ∀ (i : Ident) (p : Body L) (ks : List String) (x : L),
    leafAt (merged i p (bsc, bse)) ks = some x ↔
      leafAt b ks = some x ∨ (leafAt (.node i p.1 p.2) ks = some x ∧ Survives (.node i p.1 p.2) b ks) := by
  induction b using Val.rec (motive_2 := fun e => UniqE e → ∀ k v, e.look k = some v → ∀ (bi : Ident) (bsc bse : Ents L), v = .node bi bsc bse →
      ∀ (i : Ident) (p : Body L) (ks : List String) (x : L), leafAt (merged i p (bsc, bse)) ks = some x ↔
      leafAt v ks = some x ∨ (leafAt (.node i p.1 p.2) ks = some x ∧ Survives (.node i p.1 p.2) v ks)) with
  | leaf x => rintro - bi bsc bse ⟨⟩
  | nil => rename_i hu k v hl _ _ _ _ _ _ _ _; cases hl
  | cons k0 v0 r ihv ihr =>
    rename_i hu k v hl bi bsc bse hv i p ks x
    obtain ⟨h1, h2⟩ := hu
    simp only [Ents.look] at hl
    split_ifs at hl with h
    · cases hl; exact ihv h1 bi bsc bse hv i p ks x
    · exact ihr h2 k v hl bi bsc bse hv i p ks x
  | node bi bsc bse ih1 ih2 =>
    rintro ⟨h0, h1, h2⟩ bi' bsc' bse' ⟨⟩ i p ks x
    cases ks with
    | nil =>
      constructor
      · intro h; cases h
      · rintro (h | ⟨h, _⟩) <;> cases h
    | cons k ks =>
      have ihk : ∀ v, get (bsc, bse) k = some v → Uniq v ∧ ∀ (bi : Ident) (bsc bse : Ents L), v = .node bi bsc bse →
          ∀ (i : Ident) (p : Body L) (ks : List String) (x : L), leafAt (merged i p (bsc, bse)) ks = some x ↔
          leafAt v ks = some x ∨ (leafAt (.node i p.1 p.2) ks = some x ∧ Survives (.node i p.1 p.2) v ks) := by
        have uq : ∀ e : Ents L, UniqE e → ∀ v, e.look k = some v → Uniq v := by
          intro e
          induction e using Ents.rec (motive_1 := fun _ => True) with
          | leaf => trivial
          | node => trivial
          | nil => rintro - v ⟨⟩
          | cons k0 v0 r _ ih =>
            rintro ⟨u1, u2⟩ v hl
            simp only [Ents.look] at hl
            split_ifs at hl
            · cases hl; exact u1
            · exact ih u2 v hl
        intro v hg
        unfold get at hg
        simp only at hg
        cases hs : bsc.look k with
        | some w => rw [hs] at hg; cases hg; exact ⟨uq bsc h1 v hs, ih1 h1 k v hs⟩
        | none => rw [hs] at hg; exact ⟨uq bse h2 v hg, ih2 h2 k v hg⟩
      unfold merged
      rw [leafAt_cons, leafAt_cons, leafAt_cons]
      simp only [get_pair]
      rw [get_merge p (bsc, bse) h0]
      -- what survival says about the first key
      have surv : Survives (.node i p.1 p.2) (.node bi bsc bse) (k :: ks) ↔
          (get (bsc, bse) k = none ∨ ∃ ai asc ase ci csc cse, get p k = some (.node ai asc ase) ∧ get (bsc, bse) k = some (.node ci csc cse) ∧
            Survives (.node ai asc ase) (.node ci csc cse) ks) := by
        constructor
        · intro hsv
          cases hg : get (bsc, bse) k with
          | none => exact Or.inl rfl
          | some v =>
            right
            rcases hsv [k] (by simp) (by simp) with h | ⟨⟨ci, csc, cse, hc⟩, ⟨ai, asc, ase, ha⟩⟩
            · rw [at'_cons, hg] at h; cases h
            · rw [at'_cons, hg] at hc
              rw [at'_cons] at ha
              simp only [get_pair, at'] at hc ha
              cases hp : get p k with
              | none => rw [hp] at ha; cases ha
              | some w =>
                rw [hp] at ha
                simp only [Option.some.injEq] at hc ha
                subst hc; subst ha
                refine ⟨ai, asc, ase, ci, csc, cse, rfl, rfl, ?_⟩
                intro q hq hn
                have := hsv (k :: q) (by simpa using hq) (by simp)
                unfold nodeAt at this ⊢
                simp only [at'_cons, hg, get_pair, hp] at this
                exact this
        · intro h q hq hn
          cases q with
          | nil => exact absurd rfl hn
          | cons k' q =>
            rw [List.cons_prefix_cons] at hq
            obtain ⟨rfl, hq⟩ := hq
            rcases h with h | ⟨ai, asc, ase, ci, csc, cse, e1, e2, e3⟩
            · left; rw [at'_cons, h]
            · unfold nodeAt
              simp only [at'_cons, e2, get_pair, e1]
              cases q with
              | nil => exact Or.inr ⟨⟨_, _, _, rfl⟩, ⟨_, _, _, rfl⟩⟩
              | cons k2 q => exact e3 (k2 :: q) hq (by simp)
      rw [surv]
      cases hg : get (bsc, bse) k with
      | none => simp
      | some v =>
        simp only [reduceCtorEq, false_or]
        obtain ⟨uv, ihv⟩ := ihk v hg
        cases v with
        | leaf y =>
          cases ks with
          | nil => simp [mergeVal]
          | cons k2 ks =>
            simp only [mergeVal]
            constructor
            · intro h; exact Or.inl h
            · rintro (h | ⟨_, ai, asc, ase, ci, csc, cse, _, e, _⟩)
              · exact h
              · cases e
        | node ci csc cse =>
          cases hp : get p k with
          | none =>
            have : mergeVal (.node ci csc cse) (none : Option (Val L)) = adopt (.node ci csc cse) := by simp only [mergeVal]
            rw [this, (leafAt_adopt _ uv ks).1]
            simp
          | some w =>
            cases w with
            | leaf y =>
              have : mergeVal (.node ci csc cse) (some (.leaf y)) = adopt (.node ci csc cse) := by simp only [mergeVal]
              rw [this]
              simp only [(leafAt_adopt _ uv ks).1]
              constructor
              · intro h; exact Or.inl h
              · rintro (h | ⟨_, ai, asc, ase, _, _, _, e, _⟩)
                · exact h
                · cases e
            | node ai asc ase =>
              rw [mergeVal_nodes]
              have := ihv ci csc cse rfl ai (asc, ase) ks x
              unfold merged at this
              simp only [this]
              constructor
              · rintro (h | ⟨h, hs⟩)
                · exact Or.inl h
                · exact Or.inr ⟨h, ai, asc, ase, ci, csc, cse, rfl, rfl, hs⟩
              · rintro (h | ⟨h, ai', asc', ase', ci', csc', cse', e1, e2, hs⟩)
                · exact Or.inl h
                · cases e1; cases e2
                  exact Or.inr ⟨h, hs⟩

/-- C164 for `merge`: afterwards a setting is there exactly if the other dictionary has it, or the section had it and nothing of the other
dictionary stands in its way. -/
theorem merge_exact (i bi : Ident) (p b : Body L) (hb : Uniq (.node bi b.1 b.2)) (ks : List String) (x : L) :
    leafAt (.node i (merge p b).1 (merge p b).2) ks = some x ↔
      leafAt (.node bi b.1 b.2) ks = some x ∨ (leafAt (.node i p.1 p.2) ks = some x ∧ Survives (.node i p.1 p.2) (.node bi b.1 b.2) ks) :=
  merge_settings (.node bi b.1 b.2) hb bi b.1 b.2 rfl i p ks x

/-- The value is no section. -/
def isLeaf : Val L → Bool
  | .leaf _ => true
  | .node .. => false

theorem adopt_leaf (v : Val L) : isLeaf (adopt v) = isLeaf v := by
  cases v with
  | leaf x => rfl
  | node i a b => cases i <;> rfl

theorem setAt_keys (p : Body L) (k : String) (v : Val L) :
    (setAt p k v).1.keys = p.1.keys ++ (if (get p k).isNone && isLeaf v then [k] else []) ∧
    (setAt p k v).2.keys = p.2.keys ++ (if (get p k).isNone && !isLeaf v then [k] else []) := by
  unfold setAt get
  cases h1 : p.1.look k with
  | some w => simp [keys_replace]
  | none =>
    cases h2 : p.2.look k with
    | some w => simp [keys_replace]
    | none =>
      cases v with
      | leaf x => simp [keys_append, Ents.keys, isLeaf]
      | node i a b => simp [keys_append, Ents.keys, isLeaf]

/-- Keys keep their places; the new ones follow in the order of the other dictionary, scalars at the end of the scalars and sections at
the end of the sections. -/
theorem merge_keys (p : Body L) (b : Body L) (hb : (b.1.append b.2).keys.Nodup) :
    (merge p b).1.keys = p.1.keys ++ ((b.1.append b.2).leaves.keys.filter fun k => (get p k).isNone) ∧
    (merge p b).2.keys = p.2.keys ++ ((b.1.append b.2).nodes.keys.filter fun k => (get p k).isNone) := by
  unfold merge
  generalize b.1.append b.2 = e at hb
  induction e using Ents.rec (motive_1 := fun _ => True) generalizing p with
  | leaf => trivial
  | node => trivial
  | nil => simp [mergeEnts, Ents.leaves, Ents.nodes, Ents.keys]
  | cons k v r _ ih =>
    simp only [Ents.keys, List.nodup_cons] at hb
    obtain ⟨i1, i2⟩ := ih (setAt p k (mergeVal v (get p k))) hb.2
    obtain ⟨s1, s2⟩ := setAt_keys p k (mergeVal v (get p k))
    have hsub : ∀ e : Ents L, (∀ k', k' ∈ e.leaves.keys → k' ∈ e.keys) ∧ (∀ k', k' ∈ e.nodes.keys → k' ∈ e.keys) := by
      intro a
      induction a using Ents.rec (motive_1 := fun _ => True) with
      | leaf => trivial
      | node => trivial
      | nil => exact ⟨fun _ h => h, fun _ h => h⟩
      | cons k0 v r _ ih =>
        cases v with
        | leaf x =>
          simp only [Ents.leaves, Ents.nodes, Ents.keys, List.mem_cons]
          exact ⟨fun k' h => h.imp id (ih.1 k'), fun k' h => Or.inr (ih.2 k' h)⟩
        | node i x y =>
          simp only [Ents.leaves, Ents.nodes, Ents.keys, List.mem_cons]
          exact ⟨fun k' h => Or.inr (ih.1 k' h), fun k' h => h.imp id (ih.2 k')⟩
    have f1 : (r.leaves.keys.filter fun k' => (get (setAt p k (mergeVal v (get p k))) k').isNone) = r.leaves.keys.filter fun k' => (get p k').isNone := by
      apply List.filter_congr
      intro k' hk'
      have : k ≠ k' := by rintro rfl; exact hb.1 ((hsub r).1 k hk')
      rw [get_setAt, if_neg this]
    have f2 : (r.nodes.keys.filter fun k' => (get (setAt p k (mergeVal v (get p k))) k').isNone) = r.nodes.keys.filter fun k' => (get p k').isNone := by
      apply List.filter_congr
      intro k' hk'
      have : k ≠ k' := by rintro rfl; exact hb.1 ((hsub r).2 k hk')
      rw [get_setAt, if_neg this]
    simp only [mergeEnts]
    rw [i1, i2, s1, s2, f1, f2]
    cases hp : get p k with
    | some w =>
      cases v with
      | leaf x => simp [Ents.leaves, Ents.nodes, Ents.keys, hp]
      | node i a b => simp [Ents.leaves, Ents.nodes, Ents.keys, hp]
    | none =>
      cases v with
      | leaf x => simp [Ents.leaves, Ents.nodes, Ents.keys, hp, mergeVal, isLeaf]
      | node i a b =>
        have hm : mergeVal (.node i a b) (none : Option (Val L)) = adopt (.node i a b) := by simp only [mergeVal]
        have hno : isLeaf (adopt (.node i a b : Val L)) = false := by rw [adopt_leaf]; rfl
        simp [Ents.leaves, Ents.nodes, Ents.keys, hp, hm, hno]

/-- A section present on both sides keeps its identity; a `Section` of the other side that has no section to be merged into becomes part
of this one, as the very same object, where a dictionary is copied into a new section. -/
theorem merge_identity (p b : Body L) (hb : (b.1.append b.2).keys.Nodup) (k : String) (bi : Ident) (bsc bse : Ents L)
    (hk : get b k = some (.node bi bsc bse)) :
    (∀ i sc se, get p k = some (.node i sc se) → ∃ sc' se', get (merge p b) k = some (.node i sc' se')) ∧
    ((∀ i sc se, get p k ≠ some (.node i sc se)) → ∀ n, bi = .obj n → get (merge p b) k = get b k) ∧
    ((∀ i sc se, get p k ≠ some (.node i sc se)) → bi = .plain → ∃ sc' se', get (merge p b) k = some (.node .fresh sc' se')) := by
  have e : get (merge p b) k = some (mergeVal (.node bi bsc bse) (get p k)) := by rw [get_merge p b hb, hk]
  rw [e, hk]
  refine ⟨?_, ?_, ?_⟩
  · intro i sc se h
    rw [h, mergeVal_nodes]
    exact ⟨_, _, rfl⟩
  · rintro h n rfl
    cases hp : get p k with
    | none => simp only [mergeVal, adopt]
    | some w =>
      cases w with
      | leaf x => simp only [mergeVal, adopt]
      | node i sc se => exact absurd hp (h i sc se)
  · rintro h rfl
    cases hp : get p k with
    | none => simp only [mergeVal, adopt]; exact ⟨_, _, rfl⟩
    | some w =>
      cases w with
      | leaf x => simp only [mergeVal, adopt]; exact ⟨_, _, rfl⟩
      | node i sc se => exact absurd hp (h i sc se)

theorem toDictE_keys (a : Ents L) : (toDictE a).keys = a.keys := by
  induction a using Ents.rec (motive_1 := fun _ => True) with
  | leaf => trivial
  | node => trivial
  | nil => rfl
  | cons k v r _ ih => simp only [toDictE, Ents.keys, ih]

theorem toDictE_look (a : Ents L) (k : String) : (toDictE a).look k = (a.look k).map toDict := by
  induction a using Ents.rec (motive_1 := fun _ => True) with
  | leaf => trivial
  | node => trivial
  | nil => rfl
  | cons k' v r _ ih =>
    simp only [toDictE, Ents.look]
    split_ifs
    · rfl
    · exact ih

theorem noObjE_append (a b : Ents L) (ha : NoObjE a) (hb : NoObjE b) : NoObjE (a.append b) := by
  induction a using Ents.rec (motive_1 := fun _ => True) with
  | leaf => trivial
  | node => trivial
  | nil => exact hb
  | cons k v r _ ih => exact ⟨ha.1, ih ha.2⟩

/-- `dict()` has the same settings and sections at the same places and shares no section with the original. -/
theorem dict_exact (v : Val L) : NoObj (toDict v) ∧ ∀ ks, leafAt (toDict v) ks = leafAt v ks ∧ (nodeAt (toDict v) ks ↔ nodeAt v ks) := by
  induction v using Val.rec (motive_2 := fun e => NoObjE (toDictE e) ∧ ∀ k v, e.look k = some v → ∀ ks,
      leafAt (toDict v) ks = leafAt v ks ∧ (nodeAt (toDict v) ks ↔ nodeAt v ks)) with
  | leaf x => exact ⟨trivial, fun ks => ⟨rfl, Iff.rfl⟩⟩
  | nil => exact ⟨trivial, by rintro k v ⟨⟩⟩
  | cons k0 v0 r ihv ihr =>
    refine ⟨⟨ihv.1, ihr.1⟩, ?_⟩
    intro k v hl
    simp only [Ents.look] at hl
    split_ifs at hl with h
    · cases hl; exact ihv.2
    · exact ihr.2 k v hl
  | node i sc se ih1 ih2 =>
    refine ⟨⟨rfl, noObjE_append _ _ ih1.1 ih2.1, trivial⟩, ?_⟩
    intro ks
    cases ks with
    | nil => exact ⟨rfl, ⟨fun _ => ⟨_, _, _, rfl⟩, fun _ => ⟨_, _, _, rfl⟩⟩⟩
    | cons k ks =>
      have e : get ((toDictE sc).append (toDictE se), Ents.nil) k = (get (sc, se) k).map toDict := by
        rw [get_eq, look_append, look_append, toDictE_look, toDictE_look]
        unfold get
        simp only
        cases sc.look k <;> cases se.look k <;> rfl
      unfold leafAt nodeAt
      simp only [toDict, at', e]
      cases hg : get (sc, se) k with
      | none => simp
      | some v =>
        simp only [Option.map_some]
        have hv : ∀ ks, leafAt (toDict v) ks = leafAt v ks ∧ (nodeAt (toDict v) ks ↔ nodeAt v ks) := by
          unfold get at hg
          simp only at hg
          cases hs : sc.look k with
          | some w => rw [hs] at hg; cases hg; exact ih1.2 k v hs
          | none => rw [hs] at hg; exact ih2.2 k v hg
        exact hv ks

/-! ## Walking -/

section
variable {R E : Type}

/-- The value at a path of a result dictionary. -/
def oat : Out R → List String → Option (Out R)
  | o, [] => some o
  | .val _, _ :: _ => none
  | .no, _ :: _ => none
  | .sub es, k :: ks =>
    match es.lookup k with
    | some o => oat o ks
    | none => none

/-- What the result of the function becomes. -/
def kept : Except E R → Out R
  | .ok r => .val r
  | .error _ => .no

mutual
/-- The calls of the function made for the entries of one list, in order, if none ends the walk: on each scalar of a section, and before a
subsection is entered on it as a whole if that is asked for. -/
def callsE (call : Bool) (self : Val L) (scalar : Bool) : Ents L → List (Val L × String)
  | .nil => []
  | .cons k v r => callsV call self scalar k v ++ callsE call self scalar r
def callsV (call : Bool) (self : Val L) (scalar : Bool) (k : String) : Val L → List (Val L × String)
  | .leaf _ => if scalar || call then [(self, k)] else []
  | .node i sc se =>
    if scalar then [(self, k)]
    else (if call then [(self, k)] else []) ++ (callsE call (.node i sc se) true sc ++ callsE call (.node i sc se) false se)
end

/-- The calls of a walk. -/
def calls (call : Bool) (i : Ident) (p : Body L) : List (Val L × String) :=
  callsE call (.node i p.1 p.2) true p.1 ++ callsE call (.node i p.1 p.2) false p.2

/-- The exception of a call. -/
def failure (f : Val L → String → Except E R) (c : Val L × String) : Option E :=
  match f c.1 c.2 with
  | .ok _ => none
  | .error e => some e

/-- The outcome of a part of a walk in terms of its calls. -/
def Fits {β : Type} (o : Except (WErr E) β) (e : Option E) : Prop :=
  match e with
  | some e => o = .error (.fn e)
  | none => ∃ b, o = .ok b

theorem saneS_look (a : Ents L) (h : SaneS a) (k : String) (v : Val L) (hl : a.look k = some v) : ∃ x, v = .leaf x := by
  induction a using Ents.rec (motive_1 := fun _ => True) with
  | leaf => trivial
  | node => trivial
  | nil => cases hl
  | cons k0 v0 r _ ih =>
    cases v0 with
    | node i a b => exact absurd h (by simp [SaneS])
    | leaf x =>
      simp only [SaneS] at h
      simp only [Ents.look] at hl
      split_ifs at hl
      · cases hl; exact ⟨x, rfl⟩
      · exact ih h hl

theorem saneN_look (a : Ents L) (h : SaneN a) (k : String) (v : Val L) (hl : a.look k = some v) :
    ∃ i sc se, v = .node i sc se ∧ SaneS sc ∧ SaneN se := by
  induction a using Ents.rec (motive_1 := fun _ => True) with
  | leaf => trivial
  | node => trivial
  | nil => cases hl
  | cons k0 v0 r _ ih =>
    cases v0 with
    | leaf x => exact absurd h (by simp [SaneN])
    | node i a b =>
      simp only [SaneN, Sane] at h
      simp only [Ents.look] at hl
      split_ifs at hl
      · cases hl; exact ⟨i, a, b, rfl, h.1.1, h.1.2⟩
      · exact ih h.2 hl

theorem walkE_look (f : Val L → String → Except E R) (raise call : Bool) (self : Val L) (scalar : Bool) (a : Ents L) (os : List (String × Out R))
    (h : walkE f raise call self scalar a = .ok os) (k : String) :
    os.map (·.1) = a.keys ∧ (a.look k = none → os.lookup k = none) ∧
    ∀ v, a.look k = some v → ∃ o, walkV f raise call self scalar k v = .ok o ∧ os.lookup k = some o := by
  induction a using Ents.rec (motive_1 := fun _ => True) generalizing os with
  | leaf => trivial
  | node => trivial
  | nil => simp only [walkE] at h; cases h; exact ⟨rfl, fun _ => rfl, by rintro v ⟨⟩⟩
  | cons k0 v0 r _ ih =>
    simp only [walkE] at h
    cases hv : walkV f raise call self scalar k0 v0 with
    | error e => rw [hv] at h; cases h
    | ok o =>
      rw [hv] at h
      cases hr : walkE f raise call self scalar r with
      | error e => rw [hr] at h; cases h
      | ok os' =>
        rw [hr] at h
        cases h
        obtain ⟨i0, i1, i2⟩ := ih os' hr
        refine ⟨by simp [Ents.keys, i0], ?_, ?_⟩
        · intro hn
          simp only [Ents.look] at hn
          split_ifs at hn with hk
          have : (k == k0) = false := by simpa using Ne.symm hk
          simp only [List.lookup, this]
          exact i1 hn
        · intro v hl
          simp only [Ents.look] at hl
          split_ifs at hl with hk
          · cases hl; subst hk
            exact ⟨o, hv, by simp [List.lookup]⟩
          · have : (k == k0) = false := by simpa using Ne.symm hk
            simp only [List.lookup, this]
            exact i2 v hl

theorem walkV_node (f : Val L → String → Except E R) (raise call : Bool) (self : Val L) (k : String) (i : Ident) (sc se : Ents L) (o : Out R)
    (h : walkV f raise call self false k (.node i sc se) = .ok o) : ∃ os, o = .sub os ∧ walk f raise call i (sc, se) = .ok os := by
  simp only [walkV, Bool.false_eq_true, if_false] at h
  cases hp : pre f raise call self k with
  | some e => rw [hp] at h; cases h
  | none =>
    rw [hp] at h
    unfold walk
    simp only at h ⊢
    cases h1 : walkE f raise call (.node i sc se) true sc with
    | error e => rw [h1] at h; cases h
    | ok a =>
      rw [h1] at h
      cases h2 : walkE f raise call (.node i sc se) false se with
      | error e => simp only [h2] at h; cases h
      | ok b => simp only [h2] at h; cases h; exact ⟨_, rfl, rfl⟩

theorem scalarOut_ok (f : Val L → String → Except E R) (raise : Bool) (self : Val L) (k : String) (o : Out R)
    (h : scalarOut f raise self k = .ok o) : o = kept (f self k) := by
  unfold scalarOut at h
  cases hf : f self k with
  | ok r => rw [hf] at h; cases h; rfl
  | error e =>
    rw [hf] at h
    simp only at h
    split_ifs at h
    cases h; rfl

/-- One step down a result. -/
theorem walk_step (f : Val L → String → Except E R) (raise call : Bool) (i : Ident) (p : Body L) (hs : SaneS p.1 ∧ SaneN p.2)
    (os : List (String × Out R)) (h : walk f raise call i p = .ok os) (k : String) :
    (get p k = none → os.lookup k = none) ∧
    (∀ x, get p k = some (.leaf x) → os.lookup k = some (kept (f (.node i p.1 p.2) k))) ∧
    (∀ i' sc se, get p k = some (.node i' sc se) → (SaneS sc ∧ SaneN se) ∧ ∃ os', os.lookup k = some (.sub os') ∧ walk f raise call i' (sc, se) = .ok os') := by
  unfold walk at h
  cases h1 : walkE f raise call (.node i p.1 p.2) true p.1 with
  | error e => rw [h1] at h; cases h
  | ok a =>
    rw [h1] at h
    cases h2 : walkE f raise call (.node i p.1 p.2) false p.2 with
    | error e => simp only [h2] at h; cases h
    | ok b =>
      simp only [h2] at h
      cases h
      obtain ⟨-, a1, a2⟩ := walkE_look f raise call _ _ _ _ h1 k
      obtain ⟨-, b1, b2⟩ := walkE_look f raise call _ _ _ _ h2 k
      have la : (a ++ b).lookup k = (match a.lookup k with | some o => some o | none => b.lookup k) := by
        rw [List.lookup_append]; cases a.lookup k <;> rfl
      rw [la]
      unfold get
      cases g1 : p.1.look k with
      | some v =>
        obtain ⟨x, rfl⟩ := saneS_look _ hs.1 _ _ g1
        obtain ⟨o, e1, e2⟩ := a2 _ g1
        simp only [walkV, if_true] at e1
        have := scalarOut_ok _ _ _ _ _ e1
        subst this
        rw [e2]
        refine ⟨by rintro ⟨⟩, fun _ _ => rfl, by rintro i' sc se ⟨⟩⟩
      | none =>
        rw [a1 g1]
        cases g2 : p.2.look k with
        | none => exact ⟨fun _ => b1 g2, by rintro x ⟨⟩, by rintro i' sc se ⟨⟩⟩
        | some v =>
          obtain ⟨i', sc, se, rfl, s1, s2⟩ := saneN_look _ hs.2 _ _ g2
          obtain ⟨o, e1, e2⟩ := b2 _ g2
          obtain ⟨os', rfl, e3⟩ := walkV_node _ _ _ _ _ _ _ _ _ e1
          refine ⟨by rintro ⟨⟩, by rintro x ⟨⟩, ?_⟩
          rintro i'' sc' se' ⟨⟩
          exact ⟨⟨s1, s2⟩, os', e2, e3⟩

/-- The result of a walk has the shape of the tree: a dictionary for every section and, for every setting, what the function returned
for it, False if it raised. -/
theorem walk_result (f : Val L → String → Except E R) (raise call : Bool) (i : Ident) (p : Body L) (hs : Sane (.node i p.1 p.2))
    (os : List (String × Out R)) (h : walk f raise call i p = .ok os) :
    (∀ q k s x, at' (.node i p.1 p.2) q = some s → leafAt (.node i p.1 p.2) (q ++ [k]) = some x → oat (.sub os) (q ++ [k]) = some (kept (f s k))) ∧
    (∀ q, nodeAt (.node i p.1 p.2) q ↔ ∃ es, oat (.sub os) q = some (.sub es)) ∧
    ∀ q, at' (.node i p.1 p.2) q = none ↔ oat (.sub os) q = none := by
  simp only [Sane] at hs
  suffices key : ∀ (q : List String) (i : Ident) (p : Body L) (os : List (String × Out R)), SaneS p.1 ∧ SaneN p.2 → walk f raise call i p = .ok os →
      (∀ k s x, at' (.node i p.1 p.2) q = some s → leafAt (.node i p.1 p.2) (q ++ [k]) = some x → oat (.sub os) (q ++ [k]) = some (kept (f s k))) ∧
      (nodeAt (.node i p.1 p.2) q ↔ ∃ es, oat (.sub os) q = some (.sub es)) ∧
      (at' (.node i p.1 p.2) q = none ↔ oat (.sub os) q = none) from
    ⟨fun q => (key q i p os hs h).1, fun q => (key q i p os hs h).2.1, fun q => (key q i p os hs h).2.2⟩
  intro q
  induction q with
  | nil =>
    intro i p os hs h
    refine ⟨?_, ⟨fun _ => ⟨os, rfl⟩, fun _ => ⟨_, _, _, rfl⟩⟩, by simp [at', oat]⟩
    intro k s x e1 e2
    cases e1
    obtain ⟨s1, s2, s3⟩ := walk_step f raise call i p hs os h k
    rw [List.nil_append, leafAt_cons] at e2
    simp only [get_pair] at e2
    cases hg : get p k with
    | none => rw [hg] at e2; cases e2
    | some v =>
      rw [hg] at e2
      cases v with
      | node => cases e2
      | leaf y => simp only [List.nil_append, oat, s2 y hg]
  | cons k0 q ih =>
    intro i p os hs h
    obtain ⟨s1, s2, s3⟩ := walk_step f raise call i p hs os h k0
    unfold nodeAt
    simp only [at'_cons, List.cons_append, leafAt_cons, get_pair, oat]
    cases hg : get p k0 with
    | none =>
      rw [s1 hg]
      exact ⟨by rintro k s x ⟨⟩, by simp, by simp⟩
    | some v =>
      cases v with
      | leaf y =>
        rw [s2 y hg]
        have ho : ∀ k ks, oat (kept (f (.node i p.1 p.2) k0)) (k :: ks) = none := by
          intro k ks; cases f (.node i p.1 p.2) k0 <;> rfl
        refine ⟨?_, ?_, ?_⟩
        · intro k s x e1 e2
          simp only at e2
          unfold leafAt at e2
          cases q with
          | nil => simp only [List.nil_append, at'_leaf_cons] at e2; cases e2
          | cons => simp only [List.cons_append, at'_leaf_cons] at e2; cases e2
        · cases q with
          | nil =>
            simp only [at', oat]
            cases f (.node i p.1 p.2) k0 <;> simp [kept]
          | cons k1 q => simp [at', ho]
        · cases q with
          | nil => simp [at', oat]
          | cons k1 q => simp [at', ho]
      | node i' sc se =>
        obtain ⟨hs', os', e1, e2⟩ := s3 i' sc se hg
        rw [e1]
        obtain ⟨t1, t2, t3⟩ := ih i' (sc, se) os' hs' e2
        exact ⟨t1, t2, t3⟩

theorem findSome_append (f : Val L → String → Except E R) (a b : List (Val L × String)) :
    (a ++ b).findSome? (failure f) = (match a.findSome? (failure f) with | some e => some e | none => b.findSome? (failure f)) := by
  rw [List.findSome?_append]
  cases a.findSome? (failure f) <;> rfl

theorem scalar_fits (f : Val L → String → Except E R) (self : Val L) (k : String) :
    Fits (scalarOut f true self k) ([(self, k)].findSome? (failure f)) := by
  unfold scalarOut Fits failure
  cases hf : f self k with
  | ok r => simp [hf]
  | error e => simp [hf]

theorem walk_fits (f : Val L → String → Except E R) (call : Bool) (e : Ents L) :
    ∀ self, (SaneS e → Fits (walkE f true call self true e) ((callsE call self true e).findSome? (failure f))) ∧
      (SaneN e → Fits (walkE f true call self false e) ((callsE call self false e).findSome? (failure f))) := by
  induction e using Ents.rec (motive_1 := fun v => ∀ self k, (∀ x, v ≠ .leaf x) → Sane v →
      Fits (walkV f true call self false k v) ((callsV call self false k v).findSome? (failure f))) with
  | leaf x => rename_i h _; exact absurd rfl (h x)
  | nil => intro self; exact ⟨fun _ => ⟨[], by simp only [walkE]⟩, fun _ => ⟨[], by simp only [walkE]⟩⟩
  | cons k v r ihv ihr =>
    intro self
    refine ⟨?_, ?_⟩
    · intro hs
      cases v with
      | node => exact absurd hs (by simp [SaneS])
      | leaf x =>
        simp only [SaneS] at hs
        have h1 := scalar_fits f self k
        have h2 := (ihr self).1 hs
        simp only [callsE, callsV, Bool.true_or, if_true]
        rw [findSome_append]
        simp only [walkE, walkV, if_true]
        cases hc : [(self, k)].findSome? (failure f) with
        | some e =>
          rw [hc] at h1
          simp only [Fits] at h1 ⊢
          rw [h1]
        | none =>
          rw [hc] at h1
          obtain ⟨o, ho⟩ := h1
          rw [ho]
          simp only
          cases hc2 : (callsE call self true r).findSome? (failure f) with
          | some e => rw [hc2] at h2; simp only [Fits] at h2 ⊢; rw [h2]
          | none => rw [hc2] at h2; obtain ⟨os, h3⟩ := h2; simp only [Fits]; rw [h3]; exact ⟨_, rfl⟩
    · intro hs
      cases v with
      | leaf => exact absurd hs (by simp [SaneN])
      | node i a b =>
        simp only [SaneN] at hs
        have h1 := ihv self k (by rintro x ⟨⟩) hs.1
        have h2 := (ihr self).2 hs.2
        simp only [callsE]
        rw [findSome_append]
        simp only [walkE]
        cases hc : (callsV call self false k (.node i a b)).findSome? (failure f) with
        | some e =>
          rw [hc] at h1
          simp only [Fits] at h1 ⊢
          rw [h1]
        | none =>
          rw [hc] at h1
          obtain ⟨o, ho⟩ := h1
          rw [ho]
          simp only
          cases hc2 : (callsE call self false r).findSome? (failure f) with
          | some e => rw [hc2] at h2; simp only [Fits] at h2 ⊢; rw [h2]
          | none => rw [hc2] at h2; obtain ⟨os, h3⟩ := h2; simp only [Fits]; rw [h3]; exact ⟨_, rfl⟩
  | node i sc se ih1 ih2 =>
    rename_i self k _ hs
    simp only [Sane] at hs
    have h1 := (ih1 (.node i sc se)).1 hs.1
    have h2 := (ih2 (.node i sc se)).2 hs.2
    simp only [callsV, walkV, Bool.false_eq_true, if_false]
    rw [findSome_append, findSome_append]
    have hp : pre f true call self k = (if call then [(self, k)] else []).findSome? (failure f) := by
      unfold pre failure
      cases call
      · simp
      · cases hf : f self k <;> simp [hf]
    rw [← hp]
    cases pre f true call self k with
    | some e => rfl
    | none =>
      simp only
      cases hc : (callsE call (.node i sc se) true sc).findSome? (failure f) with
      | some e =>
        rw [hc] at h1
        simp only [Fits] at h1 ⊢
        rw [h1]
      | none =>
        rw [hc] at h1
        obtain ⟨o, ho⟩ := h1
        rw [ho]
        simp only
        cases hc2 : (callsE call (.node i sc se) false se).findSome? (failure f) with
        | some e => rw [hc2] at h2; simp only [Fits] at h2 ⊢; rw [h2]
        | none => rw [hc2] at h2; obtain ⟨os, h3⟩ := h2; simp only [Fits]; rw [h3]; exact ⟨_, rfl⟩

/-- With `raise_errors` a walk ends with the exception of the first call that raises one, and otherwise returns. -/
theorem walk_raises (f : Val L → String → Except E R) (call : Bool) (i : Ident) (p : Body L) (hs : Sane (.node i p.1 p.2)) :
    Fits (walk f true call i p) ((calls call i p).findSome? (failure f)) := by
  simp only [Sane] at hs
  have h1 := (walk_fits f call p.1 (.node i p.1 p.2)).1 hs.1
  have h2 := (walk_fits f call p.2 (.node i p.1 p.2)).2 hs.2
  unfold calls walk
  rw [findSome_append]
  cases hc : (callsE call (.node i p.1 p.2) true p.1).findSome? (failure f) with
  | some e =>
    rw [hc] at h1
    simp only [Fits] at h1 ⊢
    rw [h1]
  | none =>
    rw [hc] at h1
    obtain ⟨o, ho⟩ := h1
    rw [ho]
    simp only
    cases hc2 : (callsE call (.node i p.1 p.2) false p.2).findSome? (failure f) with
    | some e => rw [hc2] at h2; simp only [Fits] at h2 ⊢; rw [h2]
    | none => rw [hc2] at h2; obtain ⟨os, h3⟩ := h2; simp only [Fits]; rw [h3]; exact ⟨_, rfl⟩

theorem walk_quietE (f : Val L → String → Except E R) (call : Bool) (e : Ents L) :
    ∀ self, (SaneS e → ∃ os, walkE f false call self true e = .ok os) ∧ (SaneN e → ∃ os, walkE f false call self false e = .ok os) := by
  have hp : ∀ self k, pre f false call self k = none := by intro self k; simp [pre]
  induction e using Ents.rec (motive_1 := fun v => ∀ self k, (∀ x, v ≠ .leaf x) → Sane v → ∃ o, walkV f false call self false k v = .ok o) with
  | leaf x => rename_i h _; exact absurd rfl (h x)
  | nil => intro self; exact ⟨fun _ => ⟨[], by simp only [walkE]⟩, fun _ => ⟨[], by simp only [walkE]⟩⟩
  | cons k v r ihv ihr =>
    intro self
    refine ⟨?_, ?_⟩
    · intro hs
      cases v with
      | node => exact absurd hs (by simp [SaneS])
      | leaf x =>
        simp only [SaneS] at hs
        obtain ⟨os, h2⟩ := (ihr self).1 hs
        simp only [walkE, walkV, if_true, h2]
        unfold scalarOut
        cases f self k <;> simp
    · intro hs
      cases v with
      | leaf => exact absurd hs (by simp [SaneN])
      | node i a b =>
        simp only [SaneN] at hs
        obtain ⟨o, h1⟩ := ihv self k (by rintro x ⟨⟩) hs.1
        obtain ⟨os, h2⟩ := (ihr self).2 hs.2
        simp only [walkE, h1, h2]
        exact ⟨_, rfl⟩
  | node i sc se ih1 ih2 =>
    rename_i self k _ hs
    simp only [Sane] at hs
    obtain ⟨a, h1⟩ := (ih1 (.node i sc se)).1 hs.1
    obtain ⟨b, h2⟩ := (ih2 (.node i sc se)).2 hs.2
    simp only [walkV, Bool.false_eq_true, if_false, hp, h1, h2]
    exact ⟨_, rfl⟩

/-- Without it a walk of a section always returns. -/
theorem walk_quiet (f : Val L → String → Except E R) (call : Bool) (i : Ident) (p : Body L) (hs : Sane (.node i p.1 p.2)) :
    ∃ os, walk f false call i p = .ok os := by
  simp only [Sane] at hs
  obtain ⟨a, h1⟩ := (walk_quietE f call p.1 (.node i p.1 p.2)).1 hs.1
  obtain ⟨b, h2⟩ := (walk_quietE f call p.2 (.node i p.1 p.2)).2 hs.2
  simp only [walk, h1, h2]
  exact ⟨_, rfl⟩

/-- A subsection replaced by a setting stays listed as a section, and from then on no walk returns: it ends with an AttributeError, which
`raise_errors=False` does not keep back. -/
theorem walk_broken (f : Val L → String → Except E R) (call : Bool) (i i' : Ident) (k : String) (sc se : Ents L) (x : L) :
    merge (.nil, .cons k (.node i' sc se) .nil) (.cons k (.leaf x) .nil, .nil) = (.nil, .cons k (.leaf x) .nil) ∧
    walk f false call i (merge (.nil, .cons k (.node i' sc se) .nil) (.cons k (.leaf x) .nil, .nil)) = .error .attr := by
  have e : merge (.nil, .cons k (.node i' sc se) .nil) (.cons k (.leaf x) .nil, .nil) = ((.nil, .cons k (.leaf x) .nil) : Body L) := by
    simp [merge, Ents.append, mergeEnts, mergeVal, setAt, get, Ents.look, Ents.replace]
  rw [e]
  refine ⟨rfl, ?_⟩
  simp [walk, walkE, walkV, pre]

end

/-! ## A case: the example in the documentation of `merge` -/

/-- The user file: `[section1] option1 = False`. -/
def userCfg : Body String := (.nil, .cons "section1" (.node (.obj 1) (.cons "option1" (.leaf "False") .nil) .nil) .nil)
/-- The defaults: `[section1] option1 = True, more_options: another_option = ok`. -/
def baseCfg : Body String :=
  (.nil, .cons "section1" (.node (.obj 2) (.cons "option1" (.leaf "True") .nil)
    (.cons "subsection" (.node (.obj 3) (.cons "more_options" (.leaf "False") .nil) .nil) .nil)) .nil)

theorem example_merge :
    Uniq (.node (.obj 0) userCfg.1 userCfg.2) ∧ Sane (.node (.obj 0) baseCfg.1 baseCfg.2) ∧
    leafAt (.node (.obj 0) (merge baseCfg userCfg).1 (merge baseCfg userCfg).2) ["section1", "option1"] = some "False" ∧
    leafAt (.node (.obj 0) (merge baseCfg userCfg).1 (merge baseCfg userCfg).2) ["section1", "subsection", "more_options"] = some "False" := by
  refine ⟨?_, ?_, ?_, ?_⟩
  · simp [Uniq, UniqE, userCfg, Ents.append, Ents.keys]
  · simp [Sane, SaneS, SaneN, baseCfg]
  · simp [leafAt, at', merge, mergeEnts, mergeVal, setAt, get, Ents.look, Ents.append, Ents.replace, baseCfg, userCfg]
  · simp [leafAt, at', merge, mergeEnts, mergeVal, setAt, get, Ents.look, Ents.append, Ents.replace, baseCfg, userCfg]

end Verif.ConfigMerge
