import Mathlib.Data.List.Nodup
import Mathlib.Tactic.Linarith

/-!
# Text files with a field line (astropysics/utils/io.py 461-567, 813-861) (C178)

`loadtxt_text_fields` and `FixedColumnDataParser.writeFile`.  `np.dtype` of a type code, `np.loadtxt`, the conversion to a type and `eval` are parameters.
-/

namespace Verif.TextFields

abbrev Text := List Char

/-- Exceptions. -/
inductive Err
  | value | type | unboundLocal | attribute | other (n : ℕ)
  deriving DecidableEq

/-- `l.replace(c,'')`: `skip` characters are still to be dropped. -/
def removeAll (c : Text) : ℕ → Text → Text
  | _, [] => []
  | k + 1, _ :: t => removeAll c k t
  | 0, a :: t => if c ≠ [] ∧ c.isPrefixOf (a :: t) then removeAll c (c.length - 1) t else a :: removeAll c 0 t

/-- White space. -/
def isWs (c : Char) : Bool := c == ' ' || c == '\t' || c == '\n' || c == '\r' || c == '\x0b' || c == '\x0c'

/-- Splitting at single characters satisfying `p`. -/
def splitC (p : Char → Bool) : Text → List Text
  | [] => [[]]
  | c :: t => if p c then [] :: splitC p t else match splitC p t with
    | [] => [[c]]
    | w :: ws => (c :: w) :: ws

/-- `l.split(delimiter)`, io.py 518; a delimiter of one character. -/
def splitFields (delim : Option Char) (l : Text) : List Text := match delim with
  | none => (splitC isWs l).filter (· ≠ [])
  | some d => splitC (· == d) l

/-- A field of the field line: name, type code and, for derived columns, the expression. -/
structure Fld where
  name : Text
  code : Text
  expr : Option Text
  deriving DecidableEq

/-- io.py 524-533. -/
def parseField (fi : Text) : Except Err Fld := match splitC (· == ':') fi with
  | [n, t] => .ok ⟨n, t, none⟩
  | [n, t, e] => .ok ⟨n, t, some e⟩
  | _ => .error .value

def parseFields : List Text → Except Err (List Fld)
  | [] => .ok []
  | f :: fs => match parseField f with
    | .error e => .error e
    | .ok x => match parseFields fs with
      | .error e => .error e
      | .ok xs => .ok (x :: xs)

/-- The fields of a file, io.py 514-533. -/
def fieldsOf (comments : Text) (delim : Option Char) (fieldline : Int) (file : List Text) : Except Err (List Fld) :=
  match file[(fieldline - 1).toNat]? with
  | none => .error .unboundLocal
  | some l => parseFields (splitFields delim (removeAll comments 0 l))

/-- `np.dtype` of a list of names and codes: an unknown code is a TypeError (also after io.py 538-546), a repeated name a ValueError, whichever comes first.  Empty names are
not modelled. -/
def dtype (known : Text → Bool) : List Text → List Fld → Except Err Unit
  | _, [] => .ok ()
  | seen, f :: fs => if known f.code then (if f.name ∈ seen then .error .value else dtype known (f.name :: seen) fs) else .error .type

variable {V : Type}

/-- The values a name has in an expression, io.py 551-553. -/
def env (loaded : List (Text × V)) (n : Text) : Option V := (loaded.find? (fun p => p.1 = n)).map (·.2)

/-- The columns, io.py 549-556: loaded ones as they are, derived ones evaluated in the loaded ones and converted.  (Python evaluates the derived columns in the order of a
dictionary; that matters only for which of several exceptions is raised.) -/
def columns (ev : Text → (Text → Option V) → Except Err V) (cast : Text → V → V) (loaded : List (Text × V)) : List Fld → Except Err (List (Text × V))
  | [] => .ok []
  | f :: fs =>
    match (match f.expr with
      | some e => (ev e (env loaded)).map (cast f.code)
      | none => match env loaded f.name with
        | some v => Except.ok v
        | none => .error .value) with
    | .error e => .error e
    | .ok v => match columns ev cast loaded fs with
      | .error e => .error e
      | .ok vs => .ok ((f.name, v) :: vs)

/-- `loadtxt_text_fields`, io.py 507-567.  `load` is `np.loadtxt`: for the fields it is asked for it gives a column each. -/
def loadText (known : Text → Bool) (load : List Fld → Except Err (List V)) (ev : Text → (Text → Option V) → Except Err V) (cast : Text → V → V)
    (comments : Text) (delim : Option Char) (fieldline : Int) (file : List Text) : Except Err (List (Text × V)) :=
  match fieldsOf comments delim fieldline file with
  | .error e => .error e
  | .ok fs => match dtype known [] (fs.filter (·.expr.isNone)) with
    | .error e => .error e
    | .ok _ => match dtype known [] fs with
      | .error e => .error e
      | .ok _ => match load (fs.filter (·.expr.isNone)) with
        | .error e => .error e
        | .ok cols => columns ev cast (((fs.filter (·.expr.isNone)).map (·.name)).zip cols) fs

/-! ## C178 -/

theorem dtype_ok (known : Text → Bool) (seen : List Text) (fs : List Fld) :
    dtype known seen fs = .ok () ↔ (∀ f ∈ fs, known f.code = true) ∧ (fs.map (·.name)).Nodup ∧ ∀ f ∈ fs, f.name ∉ seen := by
  induction fs generalizing seen with
  | nil => simp [dtype]
  | cons f fs ih =>
    unfold dtype
    by_cases hk : known f.code = true
    · rw [if_pos hk]
      by_cases hs : f.name ∈ seen
      · rw [if_pos hs]
        simp [hs]
      · rw [if_neg hs, ih]
        simp only [List.mem_cons, forall_eq_or_imp, List.map_cons, List.nodup_cons, List.mem_map, not_or, not_exists, not_and, hk, hs, not_false_eq_true, true_and]
        constructor
        · rintro ⟨a, b, c⟩
          exact ⟨a, ⟨fun g hg he => (c g hg).1 he, b⟩, fun g hg => (c g hg).2⟩
        · rintro ⟨a, ⟨b, c⟩, d⟩
          exact ⟨a, c, fun g hg => ⟨fun he => b g hg he, d g hg⟩⟩
    · rw [if_neg hk]
      simp [hk]

theorem env_zip (names : List Text) (hn : names.Nodup) (cols : List V) (hl : cols.length = names.length) (k : ℕ) (n : Text) (h : names[k]? = some n) :
    env (names.zip cols) n = cols[k]? := by
  induction names generalizing cols k with
  | nil => simp at h
  | cons m names ih =>
    cases cols with
    | nil => simp at hl
    | cons c cols =>
      cases k with
      | zero =>
        simp only [List.getElem?_cons_zero, Option.some.injEq] at h
        subst h
        simp [env]
      | succ k =>
        simp only [List.getElem?_cons_succ] at h
        have hne : m ≠ n := fun e => (List.nodup_cons.1 hn).1 (e ▸ List.mem_of_getElem? h)
        have := ih (List.nodup_cons.1 hn).2 cols (by simpa using hl) k h
        simp only [env, List.zip_cons_cons, List.find?_cons, hne, decide_false, List.getElem?_cons_succ] at this ⊢
        exact this

theorem env_not_mem (names : List Text) (cols : List V) (n : Text) (h : n ∉ names) : env (names.zip cols) n = none := by
  unfold env
  rw [Option.map_eq_none_iff, List.find?_eq_none]
  intro p hp he
  simp only [decide_eq_true_eq] at he
  exact h (he ▸ (List.of_mem_zip (a := p.1) (b := p.2) hp).1)

/-- The value a field gets: a column of the file, or the expression evaluated in the environment and converted. -/
def FieldVal (ev : Text → (Text → Option V) → Except Err V) (cast : Text → V → V) (known' : Text → Option V) (f : Fld) (v : V) : Prop :=
  (f.expr = none ∧ known' f.name = some v) ∨ ∃ e w, f.expr = some e ∧ ev e known' = .ok w ∧ v = cast f.code w

theorem columns_exact (ev : Text → (Text → Option V) → Except Err V) (cast : Text → V → V) (loaded : List (Text × V)) (fs : List Fld) (r : List (Text × V)) :
    columns ev cast loaded fs = .ok r ↔ r.map (·.1) = fs.map (·.name) ∧
      ∀ (i : ℕ) (f : Fld) (p : Text × V), fs[i]? = some f → r[i]? = some p → FieldVal ev cast (env loaded) f p.2 := by
  induction fs generalizing r with
  | nil =>
    simp only [columns, Except.ok.injEq, List.map_nil, List.map_eq_nil_iff, List.getElem?_nil, reduceCtorEq, false_implies, implies_true, and_true]
    exact eq_comm
  | cons f fs ih =>
    have hval : ∀ v, (match f.expr with
        | some e => (ev e (env loaded)).map (cast f.code)
        | none => match env loaded f.name with
          | some v => Except.ok v
          | none => .error .value) = .ok v ↔ FieldVal ev cast (env loaded) f v := by
      intro v
      unfold FieldVal
      cases he : f.expr with
      | none => cases hv : env loaded f.name <;> simp
      | some e => cases hv : ev e (env loaded) <;> simp [Except.map, hv, eq_comm]
    unfold columns
    constructor
    · intro h
      split at h
      · cases h
      · rename_i v hv
        split at h
        · cases h
        · rename_i vs hvs
          cases h
          obtain ⟨h1, h2⟩ := (ih vs).1 hvs
          refine ⟨by simp [h1], ?_⟩
          intro i g p hg hp
          cases i with
          | zero => simp at hg hp; subst hg hp; exact (hval v).1 hv
          | succ i => exact h2 i g p (by simpa using hg) (by simpa using hp)
    · rintro ⟨h1, h2⟩
      cases r with
      | nil => simp at h1
      | cons p r =>
        simp only [List.map_cons, List.cons.injEq] at h1
        have hv := (hval p.2).2 (h2 0 f p rfl rfl)
        have hr := (ih r).2 ⟨h1.2, fun i g q hg hq => h2 (i + 1) g q (by simpa using hg) (by simpa using hq)⟩
        rw [hv, hr]
        simp only [Except.ok.injEq, List.cons.injEq, and_true]
        exact Prod.ext h1.1.symm rfl

/-- C178.  The array has exactly the fields of the field line in its order.  A field without expression is the column of the file at its place among these; a field with an
expression is that expression evaluated with the columns of the file and nothing else. -/
theorem load_exact (known : Text → Bool) (load : List Fld → Except Err (List V)) (ev : Text → (Text → Option V) → Except Err V) (cast : Text → V → V) (comments : Text)
    (delim : Option Char) (fieldline : Int) (file : List Text) (r : List (Text × V)) (hload : ∀ fs cols, load fs = .ok cols → cols.length = fs.length) :
    loadText known load ev cast comments delim fieldline file = .ok r ↔
      ∃ fs cols, fieldsOf comments delim fieldline file = .ok fs ∧ (∀ f ∈ fs, known f.code = true) ∧ (fs.map (·.name)).Nodup ∧
        load (fs.filter (·.expr.isNone)) = .ok cols ∧ r.map (·.1) = fs.map (·.name) ∧
        ∃ values : Text → Option V, (∀ (k : ℕ) (f : Fld), (fs.filter (·.expr.isNone))[k]? = some f → values f.name = cols[k]?) ∧
          (∀ n, (∀ f ∈ fs, f.expr = none → f.name ≠ n) → values n = none) ∧
          ∀ (i : ℕ) (f : Fld) (p : Text × V), fs[i]? = some f → r[i]? = some p → FieldVal ev cast values f p.2 := by
  constructor
  · intro h
    unfold loadText at h
    cases hf : fieldsOf comments delim fieldline file with
    | error e => rw [hf] at h; cases h
    | ok fs =>
      rw [hf] at h
      simp only at h
      cases hd1 : dtype known [] (fs.filter (·.expr.isNone)) with
      | error e => rw [hd1] at h; cases h
      | ok u =>
        rw [hd1] at h
        cases hd2 : dtype known [] fs with
        | error e => rw [hd2] at h; cases h
        | ok u =>
          rw [hd2] at h
          cases hl : load (fs.filter (·.expr.isNone)) with
          | error e => rw [hl] at h; cases h
          | ok cols =>
            rw [hl] at h
            simp only at h
            obtain ⟨a, b, -⟩ := (dtype_ok known [] fs).1 hd2
            obtain ⟨c, d⟩ := (columns_exact _ _ _ _ _).1 h
            refine ⟨fs, cols, rfl, a, b, hl, c, env _, ?_, ?_, d⟩
            · intro k f hk
              apply env_zip _ _ _ (by simp [hload _ _ hl]) k
              · rw [List.getElem?_map, hk]; rfl
              · exact b.sublist (List.filter_sublist.map _)
            · intro n hn
              apply env_not_mem
              rw [List.mem_map]
              rintro ⟨f, hf, rfl⟩
              rw [List.mem_filter] at hf
              exact hn f hf.1 (by simpa using hf.2) rfl
  · rintro ⟨fs, cols, hf, ha, hb, hl, hc, values, v1, v2, v3⟩
    have hd2 : dtype known [] fs = .ok () := (dtype_ok known [] fs).2 ⟨ha, hb, by simp⟩
    have hsub : ((fs.filter (·.expr.isNone)).map (·.name)).Sublist (fs.map (·.name)) := List.filter_sublist.map _
    have hd1 : dtype known [] (fs.filter (·.expr.isNone)) = .ok () :=
      (dtype_ok known [] _).2 ⟨fun f h => ha f (List.mem_of_mem_filter h), hb.sublist hsub, by simp⟩
    have henv : env (((fs.filter (·.expr.isNone)).map (·.name)).zip cols) = values := by
      funext n
      by_cases hn : n ∈ (fs.filter (·.expr.isNone)).map (·.name)
      · rw [List.mem_iff_getElem?] at hn
        obtain ⟨k, hk⟩ := hn
        rw [env_zip _ (hb.sublist hsub) _ (by simp [hload _ _ hl]) k n hk]
        rw [List.getElem?_map, Option.map_eq_some_iff] at hk
        obtain ⟨f, hk, rfl⟩ := hk
        rw [v1 k f hk]
      · rw [env_not_mem _ _ _ hn, v2 n]
        intro f hf he h
        apply hn
        rw [List.mem_map]
        exact ⟨f, by rw [List.mem_filter]; exact ⟨hf, by simp [he]⟩, h⟩
    unfold loadText
    simp only [hf, hd1, hd2, hl]
    rw [columns_exact, henv]
    exact ⟨hc, v3⟩

/-- C178.  A file with fewer lines than the number of the field line raises UnboundLocalError; numbers up to 1 mean the first line. -/
theorem short_file (comments : Text) (delim : Option Char) (fieldline : Int) (file : List Text) :
    (file.length ≤ (fieldline - 1).toNat → fieldsOf comments delim fieldline file = .error .unboundLocal) ∧
    (fieldline ≤ 1 → fieldsOf comments delim fieldline file = fieldsOf comments delim 1 file) := by
  constructor
  · intro h
    unfold fieldsOf
    rw [List.getElem?_eq_none h]
  · intro h
    have : (fieldline - 1).toNat = 0 := by omega
    simp [fieldsOf, this]

/-- Joining with colons. -/
def colons : List Text → Text
  | [] => []
  | [a] => a
  | a :: b :: l => a ++ ':' :: colons (b :: l)

theorem splitC_ne_nil (p : Char → Bool) (t : Text) : splitC p t ≠ [] := by
  induction t with
  | nil => simp [splitC]
  | cons c t ih =>
    unfold splitC
    split
    · simp
    · split <;> simp

theorem splitC_word {p : Char → Bool} {a : Text} (h : ∀ c ∈ a, p c = false) (w : Text) (ws : List Text) (t : Text) (ht : splitC p t = w :: ws) :
    splitC p (a ++ t) = (a ++ w) :: ws := by
  induction a with
  | nil => simpa using ht
  | cons c a ih =>
    have := ih (fun d hd => h d (List.mem_cons_of_mem _ hd))
    simp only [List.cons_append]
    unfold splitC
    rw [if_neg (by simp [h c (by simp)]), this]

theorem splitC_plain {p : Char → Bool} {a : Text} (h : ∀ c ∈ a, p c = false) : splitC p a = [a] := by
  have := splitC_word h [] [] [] rfl
  simpa using this

/-- Splitting undoes joining with a separator. -/
theorem splitC_sep {p : Char → Bool} {a : Text} (h : ∀ c ∈ a, p c = false) (d : Char) (hd : p d = true) (t : Text) : splitC p (a ++ d :: t) = a :: splitC p t := by
  have : splitC p (d :: t) = [] :: splitC p t := by rw [splitC, if_pos hd]
  rw [splitC_word h [] (splitC p t) (d :: t) this, List.append_nil]

/-- C178.  What a field is: two parts are name and type, three parts name, type and expression, anything else (an expression with a colon, say) is refused. -/
theorem field_forms (parts : List Text) (h : ∀ q ∈ parts, ':' ∉ q) (hne : parts ≠ []) :
    (∀ n t, parts = [n, t] → parseField (colons parts) = .ok ⟨n, t, none⟩) ∧
    (∀ n t e, parts = [n, t, e] → parseField (colons parts) = .ok ⟨n, t, some e⟩) ∧
    (parts.length ≠ 2 → parts.length ≠ 3 → parseField (colons parts) = .error .value) := by
  have hs : ∀ l : List Text, l ≠ [] → (∀ q ∈ l, ':' ∉ q) → splitC (· == ':') (colons l) = l := by
    intro l
    induction l with
    | nil => intro h; exact absurd rfl h
    | cons a l ih =>
      intro _ hq
      have ha : ∀ c ∈ a, (c == ':') = false := by
        intro c hc
        have := hq a (by simp)
        simp only [beq_eq_false_iff_ne, ne_eq]
        rintro rfl
        exact this hc
      cases l with
      | nil => exact splitC_plain ha
      | cons b l =>
        simp only [colons]
        rw [splitC_sep ha ':' (by simp), ih (by simp) (fun q hq' => hq q (List.mem_cons_of_mem _ hq'))]
  have h1 := hs parts hne h
  refine ⟨?_, ?_, ?_⟩
  · intro n t hp
    unfold parseField
    rw [h1, hp]
  · intro n t e hp
    unfold parseField
    rw [h1, hp]
  · intro h2 h3
    unfold parseField
    rw [h1]
    match parts, h2, h3, hne with
    | [a], _, _, _ => rfl
    | a :: b :: c :: d :: l, _, _, _ => rfl
    | [a, b], h2, _, _ => simp at h2
    | [a, b, c], _, h3, _ => simp at h3

/-- C178 (defect).  With a delimiter the end of the line stays in the type of the last field, so that a field line like `#a:f,b:i` is refused although `f` and `i` are types. -/
theorem delimiter_keeps_newline : fieldsOf "#".toList (some ',') 1 ["#a:f,b:i\n".toList] = .ok [⟨"a".toList, "f".toList, none⟩, ⟨"b".toList, "i\n".toList, none⟩] ∧
    fieldsOf "#".toList none 1 ["#a:f b:i\n".toList] = .ok [⟨"a".toList, "f".toList, none⟩, ⟨"b".toList, "i".toList, none⟩] ∧
    fieldsOf "#".toList none 1 ["#data1:f derived:f:data1+data2**2 data2:i\n".toList] =
      .ok [⟨"data1".toList, "f".toList, none⟩, ⟨"derived".toList, "f".toList, some "data1+data2**2".toList⟩, ⟨"data2".toList, "i".toList, none⟩] := by decide +kernel

/-! ## `writeFile` -/

/-- `FixedColumnDataParser.writeFile`, io.py 833-861, on the content of the file: `cols` are the columns of the parser (name and type), `fields` those of the data.  The variable `f` of the
open file is overwritten with a type at line 847. -/
def writeFile (cols fields : List (Text × Text)) (rows : ℕ) (content : Text) : Text × Option Err :=
  if cols.any (fun c => match fields.find? (fun f => f.1 = c.1) with
    | some f => f.2 ≠ c.2
    | none => true) then (content, some .type)
  else if cols = [] then ('\n' :: List.replicate rows '\n', none)
  else ([], some .attribute)

/-- C178 (defect).  Writing never works for a parser with columns: data that do not fit leave the file alone (TypeError), data that fit destroy it (AttributeError). -/
theorem write_destroys (cols fields : List (Text × Text)) (rows : ℕ) (content : Text) (hc : cols ≠ []) (hn : (fields.map (·.1)).Nodup) :
    ((∀ c ∈ cols, c ∈ fields) → writeFile cols fields rows content = ([], some .attribute)) ∧
    ((∃ c ∈ cols, c ∉ fields) → writeFile cols fields rows content = (content, some .type)) := by
  have key : ∀ c : Text × Text, (match fields.find? (fun f => f.1 = c.1) with
      | some f => decide (f.2 ≠ c.2)
      | none => true) = true ↔ c ∉ fields := by
    intro c
    cases hf : fields.find? (fun f => f.1 = c.1) with
    | none =>
      simp only [true_iff]
      intro hm
      simpa using List.find?_eq_none.1 hf c hm
    | some g =>
      have h1 : g.1 = c.1 := by simpa using List.find?_some hf
      have h2 := List.mem_of_find?_eq_some hf
      simp only [decide_eq_true_eq]
      constructor
      · intro hne hm
        exact hne (congrArg Prod.snd (List.inj_on_of_nodup_map hn h2 hm h1))
      · intro hm he
        exact hm ((Prod.ext h1 he : g = c) ▸ h2)
  constructor
  · intro h
    unfold writeFile
    rw [if_neg, if_neg hc]
    rw [List.any_eq_true]
    rintro ⟨c, hcm, hk⟩
    exact (key c).1 (by simpa using hk) (h c hcm)
  · rintro ⟨c, hcm, hcn⟩
    unfold writeFile
    rw [if_pos]
    rw [List.any_eq_true]
    exact ⟨c, hcm, by simpa using (key c).2 hcn⟩

/-- A file whose derived column is the sum of the other two, values being lists of numbers. -/
example : loadText (V := List ℤ) (fun t => t = "f".toList) (fun fs => if fs.length = 2 then .ok [[1, 2], [10, 20]] else .error .value)
    (fun _ values => match values "a".toList, values "b".toList with
      | some x, some y => .ok (List.zipWith (· + ·) x y)
      | _, _ => .error (.other 0)) (fun _ v => v) "#".toList none 1 ["# a:f s:f:a+b b:f\n".toList] =
    .ok [("a".toList, [1, 2]), ("s".toList, [11, 22]), ("b".toList, [10, 20])] := by decide +kernel

end Verif.TextFields
