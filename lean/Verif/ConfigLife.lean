import Mathlib.Data.List.Basic
import Mathlib.Tactic.Common

/-!
# Creating, reloading and resetting a ConfigObj (astropysics/external/configobj.py 124-138, 1187-1373, 1922-1942, 2323-2359) (C211)

Parsing a text is a parameter (`ConfigFile`, `ConfigTree` and others model it): it gives what was read, the options afterwards (the indentation and the encoding
may be set from the file) and whether there were errors.  So is parsing a configspec.  The interpolation engine, which is kept for good once used, is left out.
-/

namespace Verif.ConfigLife

/-- The options, configobj.py 124-138, besides the configspec. -/
inductive Key
  | interpolation | raiseErrors | listValues | createEmpty | fileError | stringify | indentType | encoding | defaultEncoding | unrepr | writeEmptyValues
  deriving DecidableEq

inductive Val
  | none
  | bool (b : Bool)
  | str (s : String)
  deriving DecidableEq

abbrev Opts := Key → Val

/-- `OPTION_DEFAULTS`, configobj.py 124-138; the defaults of the keywords are the same (1187-1191). -/
def defaults : Opts
  | .interpolation => .bool true
  | .raiseErrors => .bool false
  | .listValues => .bool true
  | .createEmpty => .bool false
  | .fileError => .bool false
  | .stringify => .bool true
  | .indentType => .none
  | .encoding => .none
  | .defaultEncoding => .none
  | .unrepr => .bool false
  | .writeEmptyValues => .bool false

/-- Truth of a value. -/
def truth : Val → Bool
  | .none => false
  | .bool b => b
  | .str s => s ≠ ""

inductive Err
  | type
  | io
  | reload
  | parse
  | configspec
  deriving DecidableEq

variable {D S : Type}

/-- The parser and the validator of configspecs; `empty`: what a new object holds. -/
structure World (D S : Type) where
  empty : D
  parse : Opts → String → D × Opts × Bool
  spec : S → Option Err

/-- The object: attributes with the names of the options, the file name, what it holds, the configspec used and the one given. -/
structure Obj (D S : Type) where
  inspec : Bool
  filename : Option String
  opts : Opts
  data : D
  configspec : Option S
  original : Option S

abbrev FS := String → Option String

/-- configobj.py 1235-1236, 1368-1369: objects for configspecs take no lists. -/
def forced (inspec : Bool) (o : Opts) : Opts := fun k => if inspec && decide (k = .listValues) then .bool false else o k

/-- The options that count, configobj.py 1214-1233: keywords, and a deprecated dictionary of options; `none` for the dictionary if it is not given, or a part of the options.
The dictionary given is changed to these options. -/
def effective (kw : Opts) : Option (Key → Option Val) → Opts
  | none => kw
  | some d => fun k => if defaults k ≠ kw k then kw k else (d k).getD (defaults k)

/-- `_initialise(options)`, configobj.py 1342-1372, after `clear`. -/
def initialise (w : World D S) (inspec : Bool) (o : Opts) (original : Option S) : Obj D S :=
  ⟨inspec, none, forced inspec o, w.empty, none, original⟩

/-- The end of `_load`, configobj.py 1336-1339, 1922-1940. -/
def withSpec (w : World D S) (x : Obj D S) : Option S → Obj D S × Option Err
  | none => ({ x with configspec := none }, none)
  | some s => match w.spec s with
    | some e => (x, some e)
    | none => ({ x with configspec := some s }, none)

/-- `_load` of a text, configobj.py 1302-1339. -/
def loadText (w : World D S) (x : Obj D S) (t : String) (spec : Option S) : Obj D S × Option Err :=
  let r := w.parse x.opts t
  let x := { x with data := r.1, opts := r.2.1 }
  if r.2.2 then (x, some .parse) else withSpec w x spec

/-- `_load` of a file name, configobj.py 1246-1264. -/
def loadFile (w : World D S) (fs : FS) (x : Obj D S) (name : String) (spec : Option S) : FS × Obj D S × Option Err :=
  let x := { x with filename := some name }
  match fs name with
  | some t => (fs, loadText w x t spec)
  | none => if truth (x.opts .fileError) then (fs, x, some .io)
    else if truth (x.opts .createEmpty) then (fun n => if n = name then some "" else fs n, loadText w x "" spec)
    else (fs, loadText w x "" spec)

/-- What is given as `infile`: nothing (also an empty name or list), a file name, or lines. -/
inductive Infile
  | nothing
  | file (name : String)
  | lines (t : String)

/-- `ConfigObj(...)`, configobj.py 1187-1243; `unknown`: the dictionary of options has an entry that is none. -/
def create (w : World D S) (fs : FS) (infile : Infile) (kw : Opts) (kwspec : Option S) (dict : Option (Key → Option Val)) (dictspec : Option S) (unknown : Bool)
    (inspec : Bool) : FS × Option (Obj D S × Option Err) × Option Err :=
  if dict.isSome && unknown then (fs, none, some .type) else
  let o := forced inspec (effective kw dict)
  let spec := if dict.isSome then kwspec.or dictspec else kwspec
  let x := initialise w inspec o spec
  match infile with
  | .nothing => (fs, some (loadText w x "" spec), none)
  | .lines t => (fs, some (loadText w x t spec), none)
  | .file n => if n = "" then (fs, some (loadText w x "" spec), none) else
    let r := loadFile w fs x n spec
    (r.1, some r.2, none)

/-- `reset`, configobj.py 2323-2331. -/
def reset (w : World D S) (x : Obj D S) : Obj D S := initialise w x.inspec defaults none

/-- `reload`, configobj.py 2334-2357. -/
def reload (w : World D S) (fs : FS) (x : Obj D S) : FS × Obj D S × Option Err := match x.filename with
  | none => (fs, x, some .reload)
  | some n => loadFile w fs (initialise w x.inspec x.opts x.original) n x.original

/-! ## Options -/

/-- C211: a keyword that is not the default counts; else the dictionary; else the default. -/
theorem options_count (kw : Opts) (d : Key → Option Val) (k : Key) :
    effective kw none k = kw k ∧
    (kw k ≠ defaults k → effective kw (some d) k = kw k) ∧
    (∀ v, kw k = defaults k → d k = some v → effective kw (some d) k = v) ∧
    (kw k = defaults k → d k = none → effective kw (some d) k = defaults k) := by
  refine ⟨rfl, fun h => ?_, fun v h hd => ?_, fun h hd => ?_⟩
  · simp [effective, Ne.symm h]
  · simp [effective, h, hd]
  · simp [effective, h, hd]

/-- C211, limit: a keyword cannot set an option back to its default against the dictionary. -/
theorem default_keyword_loses (kw : Opts) (d : Key → Option Val) (k : Key) (v : Val) (hd : d k = some v) (h : kw k = defaults k) (hv : v ≠ defaults k) :
    effective kw (some d) k ≠ kw k := by
  rw [(options_count kw d k).2.2.1 v h hd, h]; exact hv

/-- C211: an unknown option is a TypeError, and nothing is read or made. -/
theorem unknown_option (w : World D S) (fs : FS) (i : Infile) (kw : Opts) (s : Option S) (d : Key → Option Val) (s' : Option S) (ins : Bool) :
    create w fs i kw s (some d) s' true ins = (fs, none, some .type) := by simp [create]

/-- An option counts as off exactly if it is None, False or an empty string. -/
theorem off_iff (v : Val) : truth v = false ↔ v = .none ∨ v = .bool false ∨ v = .str "" := by
  cases v <;> simp [truth]

/-- C211: the configspec of the keyword wins over that of the dictionary; if it can be read and the file too, it is the one of the object, and without one there is none. -/
theorem created_spec (w : World D S) (fs : FS) (t : String) (kw : Opts) (ks ds : Option S) (dict : Option (Key → Option Val)) (ins : Bool)
    (hp : ∀ o, (w.parse o t).2.2 = false) (hs : ∀ s, w.spec s = none) :
    ∃ x, (create w fs (.lines t) kw ks dict ds false ins).2.1 = some (x, none) ∧
      (∀ s, ks = some s → x.configspec = some s ∧ x.original = some s) ∧
      (∀ s, ks = none → dict ≠ none → ds = some s → x.configspec = some s ∧ x.original = some s) ∧
      (ks = none → dict = none ∨ ds = none → x.configspec = none ∧ x.original = none) := by
  cases dict <;> cases ks <;> cases ds <;> simp [create, loadText, withSpec, initialise, hp, hs]

/-- C211: by default a file that is not there is an empty one, and it is not created. -/
theorem default_missing (w : World D S) (fs : FS) (n : String) (hn : n ≠ "") (hf : fs n = none) (hp : ∀ o, (w.parse o "").2.2 = false) (ins : Bool) :
    ∃ x, create w fs (.file n) defaults none none none false ins = (fs, some (x, none), none) ∧ x.filename = some n ∧
      x.data = (w.parse (forced ins defaults) "").1 := by
  have h1 : forced ins (forced ins defaults) = forced ins defaults := by funext k; unfold forced; split_ifs <;> rfl
  have h2 : truth (forced ins defaults .fileError) = false := by simp [forced, defaults, truth]
  have h3 : truth (forced ins defaults .createEmpty) = false := by simp [forced, defaults, truth]
  refine ⟨(loadText w { initialise w ins (forced ins defaults) none with filename := some n } "" none).1, ?_, ?_, ?_⟩
  · simp [create, hn, loadFile, hf, initialise, loadText, withSpec, hp, effective, h1, h2, h3]
  · simp [initialise, loadText, withSpec, hp]
  · simp [initialise, loadText, withSpec, hp, h1]

/-! ## Reloading -/

theorem forced_twice (b : Bool) (o : Opts) : forced b (forced b o) = forced b o := by
  funext k; unfold forced; split_ifs <;> rfl

/-- C211: whatever was changed in the object since, reloading gives exactly the object that would be created now from its file with its present options and its
original configspec, and the same exception if that fails. -/
theorem reload_is_new (w : World D S) (fs : FS) (x : Obj D S) (n : String) (hx : x.filename = some n) (hn : n ≠ "") :
    (create w fs (.file n) x.opts x.original none none false x.inspec).2.1 = some (reload w fs x).2 ∧
    (create w fs (.file n) x.opts x.original none none false x.inspec).1 = (reload w fs x).1 := by
  unfold create reload
  simp only [hx, Option.isSome_none, Bool.false_and, Bool.false_eq_true, if_false, if_neg hn, effective, initialise, forced_twice]
  first | exact ⟨rfl, rfl⟩ | exact ⟨trivial, rfl⟩ | simp

/-- C211: without a file name it is a ReloadError that changes nothing. -/
theorem reload_without_file (w : World D S) (fs : FS) (x : Obj D S) (hx : x.filename = none) : reload w fs x = (fs, x, some .reload) := by
  simp [reload, hx]

/-- C211: the contents before are forgotten in any case. -/
theorem reload_forgets (w : World D S) (fs : FS) (x : Obj D S) (d : D) (c : Option S) (hx : x.filename ≠ none) :
    reload w fs { x with data := d, configspec := c } = reload w fs x := by
  obtain ⟨n, hn⟩ := Option.ne_none_iff_exists'.1 hx
  simp [reload, hn]

/-- C211, limit: if the file is gone and this is an error, the contents are lost, but the name stays, so that reloading can be tried again. -/
theorem reload_lost (w : World D S) (fs : FS) (x : Obj D S) (n : String) (hx : x.filename = some n) (hf : fs n = none) (he : truth (x.opts .fileError) = true) :
    (reload w fs x).2.2 = some .io ∧ (reload w fs x).2.1.data = w.empty ∧ (reload w fs x).2.1.filename = some n ∧ (reload w fs x).1 = fs := by
  have hfe : truth (forced x.inspec x.opts .fileError) = true := by
    simp [forced, he]
  simp [reload, hx, loadFile, initialise, hf, hfe]

/-- C211: a file that is gone and need not be there is an empty one; it is created only if wanted. -/
theorem reload_missing (w : World D S) (fs : FS) (x : Obj D S) (n : String) (hx : x.filename = some n) (hf : fs n = none) (he : truth (x.opts .fileError) = false) :
    (reload w fs x).2 = loadText w { initialise w x.inspec x.opts x.original with filename := some n } "" x.original ∧
    (reload w fs x).1 n = (if truth (x.opts .createEmpty) then some "" else none) ∧ ∀ m, m ≠ n → (reload w fs x).1 m = fs m := by
  have hfe : truth (forced x.inspec x.opts .fileError) = false := by simp [forced, he]
  have hce : truth (forced x.inspec x.opts .createEmpty) = truth (x.opts .createEmpty) := by simp [forced]
  simp only [reload, hx, loadFile, initialise, hf, hfe, hce, Bool.false_eq_true, if_false]
  split_ifs with h
  · exact ⟨rfl, by simp, fun m hm => by simp [hm]⟩
  · exact ⟨rfl, hf, fun m hm => rfl⟩

/-- A parser that sets options from the file only where they were open: the same text with the options set is read in the same way. -/
def Stable (w : World D S) : Prop := ∀ o t, w.parse (w.parse o t).2.1 t = w.parse o t

/-- Parsing never touches the options that decide about lists and files. -/
def KeepsLists (w : World D S) : Prop := ∀ o t, (w.parse o t).2.1 .listValues = o .listValues ∧ (w.parse o t).2.1 .fileError = o .fileError ∧
  (w.parse o t).2.1 .createEmpty = o .createEmpty

theorem loadText_original (w : World D S) (x : Obj D S) (t : String) (s : Option S) :
    (loadText w x t s).1.original = x.original ∧ (loadText w x t s).1.filename = x.filename ∧ (loadText w x t s).1.inspec = x.inspec ∧
    (loadText w x t s).1.opts = (w.parse x.opts t).2.1 ∧ (loadText w x t s).1.data = (w.parse x.opts t).1 := by
  simp only [loadText]
  split_ifs
  · exact ⟨rfl, rfl, rfl, rfl, rfl⟩
  · unfold withSpec
    cases s with
    | none => exact ⟨rfl, rfl, rfl, rfl, rfl⟩
    | some s => cases h : w.spec s <;> simp [h]

theorem loadText_congr (w : World D S) (x y : Obj D S) (t : String) (s : Option S) (h : w.parse x.opts t = w.parse y.opts t)
    (hx : x.inspec = y.inspec ∧ x.filename = y.filename ∧ x.configspec = y.configspec ∧ x.original = y.original) : loadText w x t s = loadText w y t s := by
  obtain ⟨x1, x2, x3, x4, x5, x6⟩ := x
  obtain ⟨y1, y2, y3, y4, y5, y6⟩ := y
  obtain ⟨rfl, rfl, rfl, rfl⟩ := hx
  simp only at h
  unfold loadText
  simp only [h]

/-- C211: reloading twice from a file that is there is reloading once. -/
theorem reload_twice (w : World D S) (hs : Stable w) (hk : KeepsLists w) (fs : FS) (x : Obj D S) (n t : String) (hx : x.filename = some n) (hf : fs n = some t) :
    reload w fs (reload w fs x).2.1 = reload w fs x := by
  have e : reload w fs x = (fs, loadText w { initialise w x.inspec x.opts x.original with filename := some n } t x.original) := by
    simp [reload, hx, loadFile, hf]
  obtain ⟨h1, h2, h3, h4, h5⟩ := loadText_original w { initialise w x.inspec x.opts x.original with filename := some n } t x.original
  rw [e]
  simp only
  set y := (loadText w { initialise w x.inspec x.opts x.original with filename := some n } t x.original).1 with hy
  have e2 : reload w fs y = (fs, loadText w { initialise w y.inspec y.opts y.original with filename := some n } t y.original) := by
    have : y.filename = some n := h2
    simp [reload, this, loadFile, hf]
  rw [e2, h1, h3]
  refine Prod.ext rfl ?_
  simp only [initialise]
  apply loadText_congr
  · simp only
    rw [h4]
    simp only [initialise]
    have : forced x.inspec (w.parse (forced x.inspec x.opts) t).2.1 = (w.parse (forced x.inspec x.opts) t).2.1 := by
      funext k
      unfold forced
      split_ifs with hc
      · simp only [Bool.and_eq_true, decide_eq_true_eq] at hc
        rw [hc.2, (hk _ t).1]
        simp [hc.1]
      · rfl
    rw [this]
    exact hs _ t
  · exact ⟨rfl, rfl, rfl, rfl⟩

/-- C211, limit: an option that was set from the file is an option from then on: if the parser only sets the indentation while it is None, a reloaded file keeps the
old one. -/
theorem indent_stays (w : World D S) (hw : ∀ o t, o .indentType ≠ .none → (w.parse o t).2.1 .indentType = o .indentType) (fs : FS) (x : Obj D S) (n t : String)
    (hx : x.filename = some n) (hf : fs n = some t) (hi : x.opts .indentType ≠ .none) : (reload w fs x).2.1.opts .indentType = x.opts .indentType := by
  have e : (reload w fs x).2.1 = (loadText w { initialise w x.inspec x.opts x.original with filename := some n } t x.original).1 := by
    simp [reload, hx, loadFile, hf]
  rw [e, (loadText_original w _ t _).2.2.2.1]
  have : forced x.inspec x.opts .indentType = x.opts .indentType := by simp [forced]
  simp only [initialise]
  rw [hw _ t (by rw [this]; exact hi), this]

/-! ## Resetting -/

/-- C211: after a reset the object has no contents, no file, no configspec and the default options (for a configspec: no lists); it cannot be reloaded. -/
theorem reset_spec (w : World D S) (fs : FS) (x : Obj D S) :
    (reset w x).data = w.empty ∧ (reset w x).filename = none ∧ (reset w x).configspec = none ∧ (reset w x).original = none ∧
    (∀ k, (x.inspec = true → k ≠ .listValues) → (reset w x).opts k = defaults k) ∧ reload w fs (reset w x) = (fs, reset w x, some .reload) := by
  refine ⟨rfl, rfl, rfl, rfl, fun k hk => ?_, rfl⟩
  unfold reset initialise forced
  simp only
  split_ifs with h
  · simp only [Bool.and_eq_true, decide_eq_true_eq] at h
    exact absurd h.2 (hk h.1)
  · rfl

/-! ## An instance -/

/-- A toy parser: the text is the contents; a tab sets the indentation if it is open; '!' is an error. -/
def toy : World String Nat where
  empty := ""
  parse := fun o t => (t, fun k => if k = .indentType ∧ o k = .none then (if t.toList.head? = some '\t' then .str "\t" else .str "") else o k, decide ('!' ∈ t.toList))
  spec := fun s => if s = 0 then some .configspec else none

example : Stable toy ∧ KeepsLists toy ∧ ∀ o t, o .indentType ≠ .none → (toy.parse o t).2.1 .indentType = o .indentType := by
  refine ⟨fun o t => ?_, fun o t => ⟨by simp [toy], by simp [toy], by simp [toy]⟩, fun o t h => by simp [toy, h]⟩
  simp only [toy, Prod.mk.injEq, true_and, and_true]
  funext k
  by_cases h : k = Key.indentType ∧ o k = .none
  · obtain ⟨rfl, h⟩ := h
    by_cases ht : t.toList.head? = some '\t' <;> simp [h, ht]
  · simp [h]

example : (reload toy (fun n => if n = "f" then some "new" else none) ⟨false, some "f", defaults, "old", none, some 3⟩).2.1.data = "new" := by decide +kernel

end Verif.ConfigLife
