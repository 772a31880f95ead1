import Mathlib.Data.List.Basic
import Mathlib.Tactic.SplitIfs

/-!
# Validating a configuration (astropysics/external/configobj.py 1943-1970, 2116-2320) (C179)

`ConfigObj.validate` with `copy=False` and `stringify` on.  A section has settings (each with a flag: it is there by default only), subsections, the flag `_created`
and the list `extra_values`.  Values are no dictionaries and are read without interpolation.  The validator is a parameter: `chk check (some value)`, or
`chk check none` for a missing value.  The result dictionary is a list of entries; its order has no meaning.  A configspec has no setting named DEFAULT at the top, the
configuration none named `__many__`, and subsections have no configspec of an earlier validation.
-/

namespace Verif.ConfigValidate

variable {V C E : Type}

mutual
/-- A section. -/
inductive Sec (V : Type)
  | mk (created : Bool) (scal : List (String × V × Bool)) (secs : Secs V) (extra : List String)
/-- Subsections in order. -/
inductive Secs (V : Type)
  | nil
  | cons (k : String) (s : Sec V) (rest : Secs V)
end

mutual
/-- A configspec: the checks of its settings, the check for other settings, its subsections, the spec for other subsections. -/
inductive Spec (C : Type)
  | mk (scal : List (String × C)) (many : Option C) (secs : Specs C) (manySec : OSpec C)
/-- Subsections in order. -/
inductive Specs (C : Type)
  | nil
  | cons (k : String) (s : Spec C) (rest : Specs C)
/-- A spec or none. -/
inductive OSpec (C : Type)
  | none
  | some (s : Spec C)
end

mutual
/-- Results: True, False, an exception object, a dictionary. -/
inductive R (E : Type)
  | tt
  | ff
  | err (e : E)
  | node (m : Rs E)
/-- The entries of a dictionary. -/
inductive Rs (E : Type)
  | nil
  | cons (k : String) (r : R E) (rest : Rs E)
end

namespace Secs
def toList : Secs V → List (String × Sec V)
  | nil => []
  | cons k s r => (k, s) :: r.toList
def ofList : List (String × Sec V) → Secs V
  | [] => nil
  | (k, s) :: l => cons k s (ofList l)
end Secs

namespace Rs
def toList : Rs E → List (String × R E)
  | nil => []
  | cons k s r => (k, s) :: r.toList
def ofList : List (String × R E) → Rs E
  | [] => nil
  | (k, s) :: l => cons k s (ofList l)
end Rs

/-- The value of a key. -/
def look {α : Type} (l : List (String × α)) (k : String) : Option α := (l.find? (fun p => p.1 = k)).map (·.2)

def keys {α : Type} (l : List (String × α)) : List String := l.map (·.1)

/-- Assignment to a key of an ordered dictionary. -/
def put {α : Type} (l : List (String × α)) (k : String) (v : α) : List (String × α) :=
  if k ∈ keys l then l.map (fun p => if p.1 = k then (k, v) else p) else l ++ [(k, v)]

/-- The validator's part. -/
structure Vdt (V C E : Type) where
  chk : C → Option V → Except E V
  isMissing : E → Bool
  asSection : String → E
  asValue : String → E

/-- What `out`, `ret_true`, `ret_false` and the settings are while the settings are checked. -/
structure Acc (V E : Type) where
  out : List (String × R E)
  rt : Bool
  rf : Bool
  scal : List (String × V × Bool)

/-- `validate_entry`, configobj.py 2177-2219, for a setting that is no section. -/
def entry [DecidableEq V] (vd : Vdt V C E) (preserve : Bool) (a : Acc V E) (k : String) (c : C) (val : Option (V × Bool)) (missing : Bool) : Acc V E :=
  match vd.chk c (if missing then none else val.map (·.1)) with
  | .error e => if preserve && !vd.isMissing e then ⟨put a.out k (.err e), false, false, a.scal⟩ else ⟨put a.out k .ff, false, a.rf, a.scal⟩
  | .ok v => ⟨put a.out k .tt, a.rt, false,
      match val with
      | none => a.scal ++ [(k, v, true)]
      | some (w, _) => if v = w ∧ missing = false then a.scal else put a.scal k (v, missing)⟩

/-- `missing`, configobj.py 2234-2249. -/
def isMissing (val : Option (V × Bool)) : Bool := match val with
  | none => true
  | some (_, d) => d

/-- The settings of the configspec, configobj.py 2230-2252. -/
def specScalars [DecidableEq V] (vd : Vdt V C E) (preserve : Bool) (orig : List (String × V × Bool)) : List (String × C) → Acc V E → Acc V E
  | [], a => a
  | (k, c) :: l, a => specScalars vd preserve orig l (entry vd preserve a k c (look orig k) (isMissing (look orig k)))

/-- The settings not in the configspec if there is a `__many__`, configobj.py 2254-2265. -/
def manyScalars [DecidableEq V] (vd : Vdt V C E) (preserve : Bool) (c : C) : List (String × V × Bool) → Acc V E → Acc V E
  | [], a => a
  | (k, v) :: l, a => manyScalars vd preserve c l (entry vd preserve a k c (some v) false)

/-- Sections instead of settings and the other way, configobj.py 2267-2282. -/
def mismatch (preserve : Bool) (msg : String → E) : List String → Acc V E → Acc V E
  | [], a => a
  | k :: l, a => mismatch preserve msg l (if preserve then ⟨put a.out k (.err (msg k)), false, false, a.scal⟩ else ⟨put a.out k .ff, false, a.rf, a.scal⟩)

/-- What the validation of a section gives: the result and the section afterwards, or AttributeError. -/
abbrev Out (V E : Type) := Option (R E × Sec V)

/-- The subsections, configobj.py 2286-2305: those without spec are extra, the others are validated; results, subsections, extra names. -/
def subSections (spec : String → Option (Sec V → Out V E)) : List (String × Sec V) → Option (List (String × R E) × List (String × Sec V) × List String)
  | [] => some ([], [], [])
  | (k, s) :: l => match spec k with
    | none => match subSections spec l with
      | none => none
      | some (o, ss, ex) => some (o, (k, s) :: ss, k :: ex)
    | some f => match f s with
      | none => none
      | some (r, s') => match subSections spec l with
        | none => none
        | some (o, ss, ex) => some ((k, r) :: o, (k, s') :: ss, ex)

/-- `check == True`, `check == False`. -/
def R.isTrue : R E → Bool
  | .tt => true
  | _ => false
def R.isFalse : R E → Bool
  | .ff => true
  | _ => false

/-- An empty section made by `_set_configspec`, configobj.py 1957-1959. -/
def Sec.empty : Sec V := .mk true [] .nil []

/-- The body of `validate` for one section, configobj.py 2165-2320 with `_set_configspec`; `kids` validate the subsections of the spec. -/
def body [DecidableEq V] (vd : Vdt V C E) (preserve top : Bool) (scal : List (String × C)) (many : Option C) (kids : List (String × (Sec V → Out V E)))
    (manyKid : Option (Sec V → Out V E)) : Sec V → Out V E
  | .mk created sc secs _ =>
    let known := keys scal ++ keys kids
    let secs1 := secs.toList ++ ((kids.filter fun p => decide (p.1 ∉ keys sc ∧ p.1 ∉ keys secs.toList)).map fun p => (p.1, Sec.empty))
    let extras := sc.filter fun p => decide (p.1 ∉ known)
    -- a default would replace a section, which is then asked for its configspec
    if scal.any (fun p => decide (p.1 ∈ keys secs.toList) && (vd.chk p.2 none).toOption.isSome) then none else
    let a := specScalars vd preserve sc scal ⟨[], true, true, sc⟩
    let a := match many with
      | none => a
      | some c => manyScalars vd preserve c extras a
    let a := mismatch preserve vd.asSection ((keys scal).filter fun k => decide (k ∈ keys secs.toList)) a
    let a := mismatch preserve vd.asValue ((keys kids).filter fun k => decide (k ∈ keys sc)) a
    let spec : String → Option (Sec V → Out V E) := fun k =>
      match look kids k with
      | some f => some f
      | none => if k ∈ keys scal then none else manyKid
    let secs2 := if top then secs1.filter (fun p => decide (p.1 ≠ "DEFAULT")) else secs1
    match subSections spec secs2 with
    | none => none
    | some (o, ss, ex) =>
      let out := a.out ++ o
      let rt := a.rt && o.all (fun p => p.2.isTrue)
      let rf := a.rf && o.all (fun p => !p.2.isTrue) && (!preserve || created) && (!preserve || out.all (fun p => p.2.isFalse))
      let ss' := secs1.map fun p => (p.1, (look ss p.1).getD p.2)
      let ex' := (match many with
        | none => keys extras
        | some _ => []) ++ ex
      some (if rt then .tt else if rf then .ff else .node (Rs.ofList out), .mk created a.scal (Secs.ofList ss') ex')

mutual
/-- `validate`, configobj.py 2116-2320. -/
def validate [DecidableEq V] (vd : Vdt V C E) (preserve top : Bool) : Spec C → Sec V → Out V E
  | .mk scal many secs manySec => body vd preserve top scal many (validators vd preserve secs) (validator vd preserve manySec)
def validators [DecidableEq V] (vd : Vdt V C E) (preserve : Bool) : Specs C → List (String × (Sec V → Out V E))
  | .nil => []
  | .cons k s r => (k, validate vd preserve false s) :: validators vd preserve r
def validator [DecidableEq V] (vd : Vdt V C E) (preserve : Bool) : OSpec C → Option (Sec V → Out V E)
  | .none => none
  | .some s => some (validate vd preserve false s)
end

/-! ## What validity means -/

namespace Specs
def toList : Specs C → List (String × Spec C)
  | nil => []
  | cons k s r => (k, s) :: r.toList
end Specs
def OSpec.toOption : OSpec C → Option (Spec C)
  | none => Option.none
  | some s => Option.some s

def Sec.scal : Sec V → List (String × V × Bool)
  | .mk _ sc _ _ => sc
def Sec.sub : Sec V → List (String × Sec V)
  | .mk _ _ s _ => s.toList
def Sec.extra : Sec V → List String
  | .mk _ _ _ e => e

/-- What the validator is given for a setting: its own value, nothing for one that is absent or there by default. -/
def given (s : Sec V) (k : String) : Option V := match look s.scal k with
  | some (v, false) => some v
  | _ => none

def Spec.scal : Spec C → List (String × C)
  | .mk sc _ _ _ => sc
def Spec.many : Spec C → Option C
  | .mk _ m _ _ => m
def Spec.sub : Spec C → List (String × Spec C)
  | .mk _ _ s _ => s.toList
def Spec.manySub : Spec C → Option (Spec C)
  | .mk _ _ _ m => m.toOption

/-- The spec of a subsection: that of its name, else that for others unless the name is one of a setting; none for DEFAULT at the top. -/
def specFor (top : Bool) (p : Spec C) (k : String) : Option (Spec C) :=
  if top = true ∧ k = "DEFAULT" then none else
  match look p.sub k with
  | some q => some q
  | none => if k ∈ keys p.scal then none else p.manySub

/-- A section and a spec fit: every setting of the spec is no section and passes its check, every other setting passes the check for others if there is one, no subsection of
the spec is a setting, and every subsection that has a spec fits it (an empty one if it is missing). -/
inductive Fits (vd : Vdt V C E) : Bool → Spec C → Sec V → Prop
  | mk (top : Bool) (p : Spec C) (s : Sec V)
      (settings : ∀ k c, (k, c) ∈ p.scal → k ∉ keys s.sub ∧ ∃ v, vd.chk c (given s k) = .ok v)
      (others : ∀ c, p.many = some c → ∀ k v d, (k, v, d) ∈ s.scal → k ∉ keys p.scal → k ∉ keys p.sub → ∃ w, vd.chk c (some v) = .ok w)
      (sections : ∀ k, k ∈ keys p.sub → k ∉ keys s.scal)
      (subs : ∀ k t q, (k, t) ∈ s.sub → specFor top p k = some q → Fits vd false q t)
      (created : ∀ k q, k ∈ keys p.sub → k ∉ keys s.sub → specFor top p k = some q → Fits vd false q Sec.empty) : Fits vd top p s

/-- Somewhere a setting of the spec has a default and there is a section of its name. -/
inductive Clobbers (vd : Vdt V C E) : Bool → Spec C → Sec V → Prop
  | here (top : Bool) (p : Spec C) (s : Sec V) (k : String) (c : C) (v : V) : (k, c) ∈ p.scal → k ∈ keys s.sub → vd.chk c none = .ok v → Clobbers vd top p s
  | sub (top : Bool) (p : Spec C) (s : Sec V) (k : String) (t : Sec V) (q : Spec C) : (k, t) ∈ s.sub → specFor top p k = some q → Clobbers vd false q t → Clobbers vd top p s

/-- Names are unique, as in a dictionary. -/
structure Names (p : Spec C) (s : Sec V) : Prop where
  n1 : (keys p.scal).Nodup
  n2 : (keys p.sub).Nodup
  n3 : ∀ k, k ∈ keys p.scal → k ∉ keys p.sub
  n4 : (keys s.scal).Nodup
  n5 : (keys s.sub).Nodup
  n6 : ∀ k, k ∈ keys s.scal → k ∉ keys s.sub

/-- What the dictionary of results says of a checked setting. -/
def verdict (vd : Vdt V C E) (preserve : Bool) : Except E V → R E
  | .ok _ => .tt
  | .error e => if preserve && !vd.isMissing e then .err e else .ff

/-- The entries of the dictionary of results. -/
inductive Entry [DecidableEq V] (vd : Vdt V C E) (preserve top : Bool) (p : Spec C) (s : Sec V) : String → R E → Prop
  | setting (k : String) (c : C) : (k, c) ∈ p.scal → k ∉ keys s.sub → Entry vd preserve top p s k (verdict vd preserve (vd.chk c (given s k)))
  | other (k : String) (c : C) (v : V) (d : Bool) : p.many = some c → (k, v, d) ∈ s.scal → k ∉ keys p.scal → k ∉ keys p.sub →
      Entry vd preserve top p s k (verdict vd preserve (vd.chk c (some v)))
  | asSection (k : String) : k ∈ keys p.scal → k ∈ keys s.sub → Entry vd preserve top p s k (if preserve then .err (vd.asSection k) else .ff)
  | asValue (k : String) : k ∈ keys p.sub → k ∈ keys s.scal → Entry vd preserve top p s k (if preserve then .err (vd.asValue k) else .ff)
  | sub (k : String) (t t' : Sec V) (q : Spec C) (r : R E) : (k, t) ∈ s.sub → specFor top p k = some q → validate vd preserve false q t = some (r, t') →
      Entry vd preserve top p s k r
  | created (k : String) (t' : Sec V) (q : Spec C) (r : R E) : k ∈ keys p.sub → k ∉ keys s.sub → k ∉ keys s.scal → specFor top p k = some q →
      validate vd preserve false q Sec.empty = some (r, t') → Entry vd preserve top p s k r

/-! ## Lemmas on dictionaries -/

theorem keys_append {α : Type} (l m : List (String × α)) : keys (l ++ m) = keys l ++ keys m := by simp [keys]

theorem look_none {α : Type} (l : List (String × α)) (k : String) : look l k = none ↔ k ∉ keys l := by
  simp only [look, Option.map_eq_none_iff, List.find?_eq_none, decide_eq_true_eq, keys, List.mem_map, not_exists, not_and]

theorem look_mem {α : Type} (l : List (String × α)) (k : String) (v : α) (h : look l k = some v) : (k, v) ∈ l := by
  simp only [look, Option.map_eq_some_iff] at h
  obtain ⟨a, h, rfl⟩ := h
  have := List.mem_of_find?_eq_some h
  have h2 := List.find?_some h
  simp only [decide_eq_true_eq] at h2
  rw [← h2]; exact this

theorem look_cons {α : Type} (a : String × α) (l : List (String × α)) (k : String) : look (a :: l) k = if a.1 = k then some a.2 else look l k := by
  unfold look
  by_cases h : a.1 = k <;> simp [h]

theorem look_of_mem {α : Type} : ∀ (l : List (String × α)) (k : String) (v : α), (keys l).Nodup → (k, v) ∈ l → look l k = some v
  | [], _, _, _, h => by simp at h
  | a :: l, k, v, hn, h => by
    simp only [keys, List.map_cons, List.nodup_cons] at hn
    rw [look_cons]
    rcases List.mem_cons.1 h with h | h
    · simp [← h]
    · have : a.1 ≠ k := fun e => hn.1 (e ▸ List.mem_map.2 ⟨_, h, rfl⟩)
      rw [if_neg this]; exact look_of_mem l k v hn.2 h

theorem mem_keys {α : Type} (l : List (String × α)) (k : String) : k ∈ keys l ↔ ∃ v, (k, v) ∈ l := by
  simp [keys]

theorem look_append {α : Type} (l m : List (String × α)) (k : String) : look (l ++ m) k = (look l k).or (look m k) := by
  induction l with
  | nil => simp [look]
  | cons a l ih => rw [List.cons_append, look_cons, look_cons, ih]; split_ifs <;> simp

theorem look_put {α : Type} (l : List (String × α)) (k k' : String) (v : α) : look (put l k v) k' = if k' = k then some v else look l k' := by
  unfold put
  split_ifs with h1 h2 h2
  · subst h2
    induction l with
    | nil => simp [keys] at h1
    | cons a l ih =>
      rw [List.map_cons, look_cons, ]
      by_cases e : a.1 = k'
      · simp [e]
      · simp only [e, if_false]
        apply ih
        simpa [keys, Ne.symm e] using h1
  · clear h1
    induction l with
    | nil => rfl
    | cons a l ih =>
      rw [List.map_cons, look_cons, look_cons, ih]
      by_cases e : a.1 = k
      · simp [e, Ne.symm h2]
      · simp [e]
  · subst h2
    rw [look_append, (look_none _ _).2 h1, look_cons]; simp
  · rw [look_append, look_cons]
    simp [Ne.symm h2, look]

theorem put_new {α : Type} (l : List (String × α)) (k : String) (v : α) (h : k ∉ keys l) : put l k v = l ++ [(k, v)] := if_neg h

/-! ## The settings -/

theorem entry_eq [DecidableEq V] (vd : Vdt V C E) (pr : Bool) (a : Acc V E) (k : String) (c : C) (val : Option (V × Bool)) (m : Bool) :
    let res := vd.chk c (if m then none else val.map (·.1))
    (entry vd pr a k c val m).out = put a.out k (verdict vd pr res) ∧ (entry vd pr a k c val m).rt = (a.rt && (verdict vd pr res).isTrue) ∧
    (entry vd pr a k c val m).rf = (a.rf && (verdict vd pr res).isFalse) := by
  intro res
  unfold entry
  change _ ∧ _
  generalize hr : vd.chk c (if m then none else val.map (·.1)) = r
  have : res = r := hr
  rw [this]
  cases r with
  | ok v => simp [verdict, R.isTrue, R.isFalse]
  | error e => by_cases h : (pr && !vd.isMissing e) = true <;> simp [verdict, R.isTrue, R.isFalse, h]

/-- The argument of the check. -/
def arg (o : Option (V × Bool)) : Option V := if isMissing o then none else o.map (·.1)

theorem arg_given (s : Sec V) (k : String) : arg (look s.scal k) = given s k := by
  unfold arg given
  cases look s.scal k with
  | none => rfl
  | some v => obtain ⟨v, d⟩ := v; cases d <;> rfl

/-- The result entries of a list of settings. -/
def specOut (vd : Vdt V C E) (pr : Bool) (orig : List (String × V × Bool)) (l : List (String × C)) : List (String × R E) :=
  l.map fun p => (p.1, verdict vd pr (vd.chk p.2 (arg (look orig p.1))))

def manyOut (vd : Vdt V C E) (pr : Bool) (c : C) (l : List (String × V × Bool)) : List (String × R E) :=
  l.map fun p => (p.1, verdict vd pr (vd.chk c (some p.2.1)))

theorem specScalars_out [DecidableEq V] (vd : Vdt V C E) (pr : Bool) (orig : List (String × V × Bool)) : ∀ (l : List (String × C)) (a : Acc V E), (keys l).Nodup →
    (∀ k, k ∈ keys l → k ∉ keys a.out) → (specScalars vd pr orig l a).out = a.out ++ specOut vd pr orig l ∧
    (specScalars vd pr orig l a).rt = (a.rt && (specOut vd pr orig l).all (·.2.isTrue)) ∧ (specScalars vd pr orig l a).rf = (a.rf && (specOut vd pr orig l).all (·.2.isFalse))
  | [], a, _, _ => by simp [specScalars, specOut]
  | (k, c) :: l, a, hn, hd => by
    simp only [keys, List.map_cons, List.nodup_cons] at hn
    obtain ⟨e1, e2, e3⟩ := entry_eq vd pr a k c (look orig k) (isMissing (look orig k))
    have hk : k ∉ keys a.out := hd k (by simp [keys])
    rw [put_new _ _ _ hk] at e1
    obtain ⟨h1, h2, h3⟩ := specScalars_out vd pr orig l (entry vd pr a k c (look orig k) (isMissing (look orig k))) hn.2 (by
      intro k' hk'
      rw [e1, keys_append, List.mem_append, not_or]
      refine ⟨hd k' (by simp only [keys, List.map_cons, List.mem_cons]; exact Or.inr hk'), ?_⟩
      simp only [keys, List.map_cons, List.map_nil, List.mem_singleton]
      rintro rfl; exact hn.1 hk')
    rw [e1] at h1; rw [e2] at h2; rw [e3] at h3
    simp only [specScalars]
    refine ⟨?_, ?_, ?_⟩
    · rw [h1]; simp [specOut, arg]
    · rw [h2]; simp [specOut, arg, Bool.and_assoc]
    · rw [h3]; simp [specOut, arg, Bool.and_assoc]

theorem manyScalars_out [DecidableEq V] (vd : Vdt V C E) (pr : Bool) (c : C) : ∀ (l : List (String × V × Bool)) (a : Acc V E), (keys l).Nodup →
    (∀ k, k ∈ keys l → k ∉ keys a.out) → (manyScalars vd pr c l a).out = a.out ++ manyOut vd pr c l ∧
    (manyScalars vd pr c l a).rt = (a.rt && (manyOut vd pr c l).all (·.2.isTrue)) ∧ (manyScalars vd pr c l a).rf = (a.rf && (manyOut vd pr c l).all (·.2.isFalse))
  | [], a, _, _ => by simp [manyScalars, manyOut]
  | (k, v) :: l, a, hn, hd => by
    simp only [keys, List.map_cons, List.nodup_cons] at hn
    obtain ⟨e1, e2, e3⟩ := entry_eq vd pr a k c (some v) false
    have hk : k ∉ keys a.out := hd k (by simp [keys])
    rw [put_new _ _ _ hk] at e1
    obtain ⟨h1, h2, h3⟩ := manyScalars_out vd pr c l (entry vd pr a k c (some v) false) hn.2 (by
      intro k' hk'
      rw [e1, keys_append, List.mem_append, not_or]
      refine ⟨hd k' (by simp only [keys, List.map_cons, List.mem_cons]; exact Or.inr hk'), ?_⟩
      simp only [keys, List.map_cons, List.map_nil, List.mem_singleton]
      rintro rfl; exact hn.1 hk')
    rw [e1] at h1; rw [e2] at h2; rw [e3] at h3
    simp only [manyScalars]
    refine ⟨?_, ?_, ?_⟩
    · rw [h1]; simp [manyOut]
    · rw [h2]; simp [manyOut, Bool.and_assoc]
    · rw [h3]; simp [manyOut, Bool.and_assoc]

/-- The entry for a mismatch. -/
def mm (pr : Bool) (msg : String → E) (k : String) : R E := if pr then .err (msg k) else .ff

theorem mismatch_out (pr : Bool) (msg : String → E) : ∀ (l : List String) (a : Acc V E),
    (∀ k r, look (mismatch pr msg l a).out k = some r ↔ (k ∈ l ∧ r = mm pr msg k) ∨ (k ∉ l ∧ look a.out k = some r)) ∧
    (mismatch pr msg l a).rt = (a.rt && l.isEmpty) ∧ (mismatch pr msg l a).rf = (a.rf && (l.isEmpty || !pr)) ∧ (mismatch pr msg l a).scal = a.scal ∧
    ((keys a.out).Nodup → (keys (mismatch pr msg l a).out).Nodup)
  | [], a => by simp [mismatch]
  | k :: l, a => by
    have put_nodup : ∀ r : R E, (keys a.out).Nodup → (keys (put a.out k r)).Nodup := by
      intro r h
      unfold put
      split_ifs with hk
      · have : keys (a.out.map fun p => if p.1 = k then (k, r) else p) = keys a.out := by
          simp only [keys, List.map_map]
          apply List.map_congr_left
          intro p _
          by_cases e : p.1 = k <;> simp [e]
        rw [this]; exact h
      · rw [keys_append]
        refine List.nodup_append.2 ⟨h, by simp [keys], ?_⟩
        intro x hx y hy
        simp only [keys, List.map_cons, List.map_nil, List.mem_singleton] at hy
        rintro rfl; subst hy; exact hk hx
    have ih := mismatch_out pr msg l (if pr then ⟨put a.out k (.err (msg k)), false, false, a.scal⟩ else ⟨put a.out k .ff, false, a.rf, a.scal⟩)
    obtain ⟨h1, h2, h3, h4, h5⟩ := ih
    simp only [mismatch]
    refine ⟨?_, ?_, ?_, ?_, ?_⟩
    · intro k' r
      rw [h1]
      cases pr <;> simp only [if_true, if_false, Bool.false_eq_true, look_put, mm, List.mem_cons]
      all_goals
        by_cases hk : k' = k
        · subst hk
          by_cases hl : k' ∈ l <;> simp [hl, eq_comm]
        · simp [hk]
    · rw [h2]; cases pr <;> simp
    · rw [h3]; cases pr <;> simp
    · rw [h4]; cases pr <;> simp
    · intro h
      apply h5
      cases pr <;> simp only [if_true, if_false, Bool.false_eq_true] <;> exact put_nodup _ h

theorem spec_flags [DecidableEq V] (vd : Vdt V C E) (pr : Bool) (orig : List (String × V × Bool)) : ∀ (l : List (String × C)) (a : Acc V E),
    (specScalars vd pr orig l a).rt = (a.rt && (specOut vd pr orig l).all (·.2.isTrue)) ∧ (specScalars vd pr orig l a).rf = (a.rf && (specOut vd pr orig l).all (·.2.isFalse))
  | [], a => by simp [specScalars, specOut]
  | (k, c) :: l, a => by
    obtain ⟨_, e2, e3⟩ := entry_eq vd pr a k c (look orig k) (isMissing (look orig k))
    obtain ⟨h2, h3⟩ := spec_flags vd pr orig l (entry vd pr a k c (look orig k) (isMissing (look orig k)))
    rw [e2] at h2; rw [e3] at h3
    simp only [specScalars]
    exact ⟨by rw [h2]; simp [specOut, arg, Bool.and_assoc], by rw [h3]; simp [specOut, arg, Bool.and_assoc]⟩

theorem many_flags [DecidableEq V] (vd : Vdt V C E) (pr : Bool) (c : C) : ∀ (l : List (String × V × Bool)) (a : Acc V E),
    (manyScalars vd pr c l a).rt = (a.rt && (manyOut vd pr c l).all (·.2.isTrue)) ∧ (manyScalars vd pr c l a).rf = (a.rf && (manyOut vd pr c l).all (·.2.isFalse))
  | [], a => by simp [manyScalars, manyOut]
  | (k, v) :: l, a => by
    obtain ⟨_, e2, e3⟩ := entry_eq vd pr a k c (some v) false
    obtain ⟨h2, h3⟩ := many_flags vd pr c l (entry vd pr a k c (some v) false)
    rw [e2] at h2; rw [e3] at h3
    simp only [manyScalars]
    exact ⟨by rw [h2]; simp [manyOut, Bool.and_assoc], by rw [h3]; simp [manyOut, Bool.and_assoc]⟩

/-! ## The subsections -/

theorem sub_mem (spec : String → Option (Sec V → Out V E)) : ∀ (l : List (String × Sec V)) (o ss ex), subSections spec l = some (o, ss, ex) →
    (∀ k r, (k, r) ∈ o ↔ ∃ t f t', (k, t) ∈ l ∧ spec k = some f ∧ f t = some (r, t')) ∧ keys ss = keys l ∧ (∀ k, k ∈ ex ↔ k ∈ keys l ∧ spec k = none) ∧
    (∀ k t, (k, t) ∈ ss ↔ ∃ t0, (k, t0) ∈ l ∧ ((spec k = none ∧ t = t0) ∨ ∃ f r, spec k = some f ∧ f t0 = some (r, t))) ∧
    (∀ k t f, (k, t) ∈ l → spec k = some f → ∃ r t', f t = some (r, t')) ∧ ((keys l).Nodup → (keys o).Nodup)
  | [], o, ss, ex, h => by
    simp only [subSections, Option.some.injEq, Prod.mk.injEq] at h
    obtain ⟨rfl, rfl, rfl⟩ := h
    simp [keys]
  | (k, s) :: l, o, ss, ex, h => by
    simp only [subSections] at h
    cases hs : spec k with
    | none =>
      rw [hs] at h
      cases hl : subSections spec l with
      | none => simp [hl] at h
      | some x =>
        obtain ⟨o1, s1, e1⟩ := x
        simp only [hl, Option.some.injEq, Prod.mk.injEq] at h
        obtain ⟨rfl, rfl, rfl⟩ := h
        obtain ⟨h1, h2, h3, h4, h5, h6⟩ := sub_mem spec l _ _ _ hl
        refine ⟨?_, ?_, ?_, ?_, ?_, ?_⟩
        · intro k' r
          rw [h1]
          constructor
          · rintro ⟨t, f, t', a, b, c⟩; exact ⟨t, f, t', List.mem_cons_of_mem _ a, b, c⟩
          · rintro ⟨t, f, t', a, b, c⟩
            rcases List.mem_cons.1 a with a | a
            · simp only [Prod.mk.injEq] at a; rw [a.1, hs] at b; simp at b
            · exact ⟨t, f, t', a, b, c⟩
        · simpa [keys] using h2
        · intro k'
          simp only [List.mem_cons, h3, keys, List.map_cons]
          constructor
          · rintro (rfl | ⟨a, b⟩)
            · exact ⟨Or.inl rfl, hs⟩
            · exact ⟨Or.inr a, b⟩
          · rintro ⟨rfl | a, b⟩
            · exact Or.inl rfl
            · exact Or.inr ⟨a, b⟩
        · intro k' t
          simp only [List.mem_cons, h4, Prod.mk.injEq]
          constructor
          · rintro (⟨rfl, rfl⟩ | ⟨t0, a, b⟩)
            · exact ⟨_, Or.inl ⟨rfl, rfl⟩, Or.inl ⟨hs, rfl⟩⟩
            · exact ⟨t0, Or.inr a, b⟩
          · rintro ⟨t0, ⟨rfl, rfl⟩ | a, b⟩
            · rcases b with ⟨_, rfl⟩ | ⟨f, r, b, _⟩
              · exact Or.inl ⟨rfl, rfl⟩
              · rw [hs] at b; simp at b
            · exact Or.inr ⟨t0, a, b⟩
        · intro k' t f a b
          rcases List.mem_cons.1 a with a | a
          · simp only [Prod.mk.injEq] at a; rw [a.1, hs] at b; simp at b
          · exact h5 k' t f a b
        · intro hn
          simp only [keys, List.map_cons, List.nodup_cons] at hn
          exact h6 hn.2
    | some f =>
      rw [hs] at h
      cases hf : f s with
      | none => simp [hf] at h
      | some y =>
      obtain ⟨r0, s0⟩ := y
      cases hl : subSections spec l with
      | none => simp [hf, hl] at h
      | some x =>
        obtain ⟨o1, s1, e1⟩ := x
        simp only [hf, hl, Option.some.injEq, Prod.mk.injEq] at h
        obtain ⟨rfl, rfl, rfl⟩ := h
        obtain ⟨h1, h2, h3, h4, h5, h6⟩ := sub_mem spec l _ _ _ hl
        refine ⟨?_, ?_, ?_, ?_, ?_, ?_⟩
        · intro k' r
          simp only [List.mem_cons, h1, Prod.mk.injEq]
          constructor
          · rintro (⟨rfl, rfl⟩ | ⟨t, f, t', a, b, c⟩)
            · exact ⟨s, f, s0, Or.inl ⟨rfl, rfl⟩, hs, hf⟩
            · exact ⟨t, f, t', Or.inr a, b, c⟩
          · rintro ⟨t, g, t', ⟨rfl, rfl⟩ | a, b, c⟩
            · rw [hs] at b; obtain rfl := Option.some.inj b
              rw [hf] at c
              simp only [Option.some.injEq, Prod.mk.injEq] at c
              exact Or.inl ⟨rfl, c.1.symm⟩
            · exact Or.inr ⟨t, g, t', a, b, c⟩
        · simpa [keys] using h2
        · intro k'
          rw [h3]
          simp only [keys, List.map_cons, List.mem_cons]
          constructor
          · rintro ⟨a, b⟩; exact ⟨Or.inr a, b⟩
          · rintro ⟨rfl | a, b⟩
            · rw [hs] at b; simp at b
            · exact ⟨a, b⟩
        · intro k' t
          simp only [List.mem_cons, h4, Prod.mk.injEq]
          constructor
          · rintro (⟨rfl, rfl⟩ | ⟨t0, a, b⟩)
            · exact ⟨s, Or.inl ⟨rfl, rfl⟩, Or.inr ⟨f, r0, hs, hf⟩⟩
            · exact ⟨t0, Or.inr a, b⟩
          · rintro ⟨t0, ⟨rfl, rfl⟩ | a, b⟩
            · rcases b with ⟨b, rfl⟩ | ⟨g, r, b, c⟩
              · rw [hs] at b; simp at b
              · rw [hs] at b; obtain rfl := Option.some.inj b
                rw [hf] at c
                simp only [Option.some.injEq, Prod.mk.injEq] at c
                exact Or.inl ⟨rfl, c.2.symm⟩
            · exact Or.inr ⟨t0, a, b⟩
        · intro k' t g a b
          rcases List.mem_cons.1 a with a | a
          · simp only [Prod.mk.injEq] at a
            obtain ⟨rfl, rfl⟩ := a
            rw [hs] at b; obtain rfl := Option.some.inj b
            exact ⟨_, _, hf⟩
          · exact h5 k' t g a b
        · intro hn
          simp only [keys, List.map_cons, List.nodup_cons] at hn ⊢
          refine ⟨?_, h6 hn.2⟩
          intro hk
          obtain ⟨v, hv⟩ := (mem_keys _ _).1 (show k ∈ keys o1 from hk)
          obtain ⟨t, _, _, a, _⟩ := (h1 _ _).1 hv
          exact hn.1 ((mem_keys l k).2 ⟨t, a⟩)

theorem sub_none (spec : String → Option (Sec V → Out V E)) : ∀ (l : List (String × Sec V)), subSections spec l = none ↔
    ∃ k t f, (k, t) ∈ l ∧ spec k = some f ∧ f t = none
  | [] => by simp [subSections]
  | (k, s) :: l => by
    have ih := sub_none spec l
    simp only [subSections]
    cases hs : spec k with
    | none =>
      dsimp only
      cases hl : subSections spec l with
      | none =>
        obtain ⟨k', t, f, a, b, c⟩ := ih.1 hl
        simp only [true_iff]
        exact ⟨k', t, f, List.mem_cons_of_mem _ a, b, c⟩
      | some x =>
        simp only [reduceCtorEq, false_iff]
        rintro ⟨k', t, f, a, b, c⟩
        rcases List.mem_cons.1 a with a | a
        · simp only [Prod.mk.injEq] at a; rw [a.1, hs] at b; simp at b
        · have := ih.2 ⟨k', t, f, a, b, c⟩; rw [hl] at this; simp at this
    | some f =>
      dsimp only
      cases hf : f s with
      | none => simp only [true_iff]; exact ⟨k, s, f, List.mem_cons_self, hs, hf⟩
      | some y =>
        obtain ⟨r0, s0⟩ := y
        dsimp only
        cases hl : subSections spec l with
        | none =>
          obtain ⟨k', t, f, a, b, c⟩ := ih.1 hl
          simp only [true_iff]
          exact ⟨k', t, f, List.mem_cons_of_mem _ a, b, c⟩
        | some x =>
          simp only [reduceCtorEq, false_iff]
          rintro ⟨k', t, g, a, b, c⟩
          rcases List.mem_cons.1 a with a | a
          · simp only [Prod.mk.injEq] at a
            obtain ⟨rfl, rfl⟩ := a
            rw [hs] at b; obtain rfl := Option.some.inj b
            rw [hf] at c; simp at c
          · have := ih.2 ⟨k', t, g, a, b, c⟩; rw [hl] at this; simp at this

theorem look_validators [DecidableEq V] (vd : Vdt V C E) (pr : Bool) : ∀ (p : Specs C) (k : String),
    look (validators vd pr p) k = (look p.toList k).map (validate vd pr false)
  | .nil, k => by simp [validators, Specs.toList, look]
  | .cons k' s r, k => by
    simp only [validators, Specs.toList, look_cons, look_validators vd pr r k]
    split_ifs <;> rfl

theorem keys_validators [DecidableEq V] (vd : Vdt V C E) (pr : Bool) : ∀ (p : Specs C), keys (validators vd pr p) = keys p.toList
  | .nil => rfl
  | .cons k' s r => by
    have := keys_validators vd pr r
    simp only [keys] at this
    simp [validators, Specs.toList, keys, this]

theorem ofList_toList_secs : ∀ l : List (String × Sec V), (Secs.ofList l).toList = l
  | [] => rfl
  | (k, s) :: l => by simp [Secs.ofList, Secs.toList, ofList_toList_secs l]

theorem ofList_toList_rs : ∀ l : List (String × R E), (Rs.ofList l).toList = l
  | [] => rfl
  | (k, s) :: l => by simp [Rs.ofList, Rs.toList, ofList_toList_rs l]

/-! ## One level -/

/-- The subsections with those that are missing. -/
def allSubs (p : Spec C) (s : Sec V) : List (String × Sec V) :=
  s.sub ++ ((p.sub.filter fun q => decide (q.1 ∉ keys s.scal ∧ q.1 ∉ keys s.sub)).map fun q => (q.1, Sec.empty))

def others (p : Spec C) (s : Sec V) : List (String × V × Bool) := s.scal.filter fun q => decide (q.1 ∉ keys p.scal ++ keys p.sub)

def Sec.created : Sec V → Bool
  | .mk c _ _ _ => c

/-- The state after the settings. -/
def acc1 [DecidableEq V] (vd : Vdt V C E) (pr : Bool) (p : Spec C) (s : Sec V) : Acc V E :=
  match p.many with
  | none => specScalars vd pr s.scal p.scal ⟨[], true, true, s.scal⟩
  | some c => manyScalars vd pr c (others p s) (specScalars vd pr s.scal p.scal ⟨[], true, true, s.scal⟩)

def acc [DecidableEq V] (vd : Vdt V C E) (pr : Bool) (p : Spec C) (s : Sec V) : Acc V E :=
  mismatch pr vd.asValue ((keys p.sub).filter fun k => decide (k ∈ keys s.scal))
    (mismatch pr vd.asSection ((keys p.scal).filter fun k => decide (k ∈ keys s.sub)) (acc1 vd pr p s))

/-- The subsections that are looked at. -/
def visited (top : Bool) (p : Spec C) (s : Sec V) : List (String × Sec V) := (allSubs p s).filter fun q => decide (¬ (top = true ∧ q.1 = "DEFAULT"))

def finish (pr : Bool) (s : Sec V) (a : Acc V E) (o : List (String × R E)) : R E :=
  if (a.rt && o.all (fun p => p.2.isTrue)) = true then .tt
  else if (a.rf && o.all (fun p => !p.2.isTrue) && (!pr || s.created) && (!pr || (a.out ++ o).all (fun p => p.2.isFalse))) = true then .ff
  else .node (Rs.ofList (a.out ++ o))

theorem filter_map_keys {α β γ : Type} (f : String → Bool) (e : γ) : ∀ (l : List (String × α)) (m : List (String × β)), keys l = keys m →
    (l.filter fun p => f p.1).map (fun p => (p.1, e)) = (m.filter fun p => f p.1).map (fun p => (p.1, e))
  | [], [], _ => rfl
  | [], _ :: _, h => by simp [keys] at h
  | _ :: _, [], h => by simp [keys] at h
  | a :: l, b :: m, hk => by
    simp only [keys, List.map_cons, List.cons.injEq] at hk
    have ih := filter_map_keys f e l m hk.2
    simp only [List.filter_cons, hk.1]
    split_ifs
    · simp [hk.1, ih]
    · exact ih

theorem sub_congr (f g : String → Option (Sec V → Out V E)) : ∀ l : List (String × Sec V), (∀ k, k ∈ keys l → f k = g k) → subSections f l = subSections g l
  | [], _ => rfl
  | (k, s) :: l, h => by
    simp only [subSections, sub_congr f g l (fun k hk => h k (by simp only [keys, List.map_cons, List.mem_cons]; exact Or.inr hk)), h k (by simp [keys])]

theorem unfold_validate [DecidableEq V] (vd : Vdt V C E) (pr top : Bool) (p : Spec C) (s : Sec V) :
    validate vd pr top p s =
      open Classical in if (∃ k c, (k, c) ∈ p.scal ∧ k ∈ keys s.sub ∧ ∃ v, vd.chk c none = .ok v) then none else
      match subSections (fun k => (specFor top p k).map (validate vd pr false)) (visited top p s) with
      | none => none
      | some (o, ss, ex) => some (finish pr s (acc vd pr p s) o,
          .mk s.created (acc vd pr p s).scal (Secs.ofList ((allSubs p s).map fun q => (q.1, (look ss q.1).getD q.2)))
            ((if p.many.isNone then keys (others p s) else []) ++ ex)) := by
  obtain ⟨scal, many, secs, ms⟩ := p
  obtain ⟨created, sc, sub, ex0⟩ := s
  simp only [validate, body]
  have hany : (scal.any fun p => decide (p.1 ∈ keys sub.toList) && (vd.chk p.2 none).toOption.isSome) = true ↔
      ∃ k c, (k, c) ∈ (Spec.mk scal many secs ms).scal ∧ k ∈ keys (Sec.mk created sc sub ex0).sub ∧ ∃ v, vd.chk c none = .ok v := by
    simp only [List.any_eq_true, Bool.and_eq_true, decide_eq_true_eq, Spec.scal, Sec.sub]
    constructor
    · rintro ⟨⟨k, c⟩, a, b, d⟩
      refine ⟨k, c, a, b, ?_⟩
      cases h : vd.chk c none with
      | ok v => exact ⟨v, rfl⟩
      | error e => simp [h, Except.toOption] at d
    · rintro ⟨k, c, a, b, v, d⟩
      exact ⟨(k, c), a, b, by simp [d, Except.toOption]⟩
  have hall : sub.toList ++ (((validators vd pr secs).filter fun p => decide (p.1 ∉ keys sc ∧ p.1 ∉ keys sub.toList)).map fun p => (p.1, Sec.empty)) =
      allSubs (Spec.mk scal many secs ms) (Sec.mk created sc sub ex0) := by
    simp only [allSubs, Sec.sub, Sec.scal, Spec.sub]
    rw [filter_map_keys (fun k => decide (k ∉ keys sc ∧ k ∉ keys sub.toList)) Sec.empty _ _ (keys_validators vd pr secs)]
    rfl
  rw [hall]
  have hvis : (if top = true then (allSubs (Spec.mk scal many secs ms) (Sec.mk created sc sub ex0)).filter (fun p => decide (p.1 ≠ "DEFAULT"))
      else allSubs (Spec.mk scal many secs ms) (Sec.mk created sc sub ex0)) = visited top (Spec.mk scal many secs ms) (Sec.mk created sc sub ex0) := by
    cases top <;> simp [visited]
  rw [hvis]
  by_cases hc : ∃ k c, (k, c) ∈ (Spec.mk scal many secs ms).scal ∧ k ∈ keys (Sec.mk created sc sub ex0).sub ∧ ∃ v, vd.chk c none = .ok v
  · rw [if_pos (hany.2 hc), if_pos hc]
  · rw [if_neg (fun h => hc (hany.1 h)), if_neg hc]
    have hsub := sub_congr (fun k => match look (validators vd pr secs) k with
        | some f => some f
        | none => if k ∈ keys scal then none else validator vd pr ms) (fun k => (specFor top (Spec.mk scal many secs ms) k).map (validate vd pr false))
        (visited top (Spec.mk scal many secs ms) (Sec.mk created sc sub ex0)) (by
      intro k hk
      obtain ⟨t, ht⟩ := (mem_keys _ _).1 hk
      have hd := List.of_mem_filter ht
      simp only [decide_eq_true_eq] at hd
      simp only [specFor, if_neg hd, look_validators, Spec.sub, Spec.scal, Spec.manySub]
      cases look secs.toList k with
      | some q => rfl
      | none =>
        simp only [Option.map_none]
        by_cases h : k ∈ keys scal
        · simp [h]
        · simp only [h, if_false]
          cases ms <;> simp [validator, OSpec.toOption])
    rw [hsub]
    cases subSections (fun k => (specFor top (Spec.mk scal many secs ms) k).map (validate vd pr false)) (visited top (Spec.mk scal many secs ms) (Sec.mk created sc sub ex0)) with
    | none => rfl
    | some x =>
      obtain ⟨o, ss, ex⟩ := x
      simp only [finish, acc, acc1, Spec.many, Spec.scal, Spec.sub, Sec.scal, Sec.sub, Sec.created, others, keys_validators]
      cases many with
      | none => rfl
      | some c => rfl

end Verif.ConfigValidate
