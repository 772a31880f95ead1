/-!
# String interpolation in configuration sections (astropysics/external/configobj.py 299-460, 540-580)

`Section.__getitem__`, `Section._interpolate`, `InterpolationEngine.interpolate`, `_fetch` and the two engines.  Texts are
lists of characters.  A section is seen through the chain of its ancestors.  Not modelled: Python's recursion limit; values
that are plain dictionaries (only possible with `unrepr`).
-/

namespace Verif.ConfigInterp

abbrev Text := List Char

/-- The exceptions. -/
inductive Err
  | key | missing (k : Text) | loop (k : Text) | type | attribute | fuel
deriving DecidableEq

/-- An entry of a list value. -/
inductive Entry
  | str (t : Text)
  | other
deriving DecidableEq

/-- A stored value. -/
inductive Val
  | none
  | str (t : Text)
  | list (l : List Entry)
  | other
  | sect (opts : List (Text × Val))

/-- `dict.get` on the pairs of a dictionary. -/
def assoc {V : Type} : List (Text × V) → Text → Option V
  | [], _ => Option.none
  | (k', v) :: l, k => if k' = k then some v else assoc l k

/-- A section: its name (`None` for the main one) and its contents. -/
structure Level where
  name : Option Text
  opts : List (Text × Val)

/-! ## The engines -/

/-- What a match of `_KEYCRE` is: a reference to a key, or a text that is final. -/
inductive Tok
  | ref (k : Text)
  | text (t : Text)

/-- `%\(([^)]*)\)s` at the beginning of a text, configobj.py 423, 425-428: the token and what follows the match. -/
def matchPercent : Text → Option (Tok × Text)
  | '%' :: '(' :: u =>
    match u.dropWhile (fun c => c != ')') with
    | ')' :: 's' :: rest => some (.ref (u.takeWhile (fun c => c != ')')), rest)
    | _ => Option.none
  | _ => Option.none

/-- `[_a-z]`, ignoring case. -/
def nameStart (c : Char) : Bool := c == '_' || c.isAlpha

/-- `[_a-z0-9]`, ignoring case. -/
def nameChar (c : Char) : Bool := c == '_' || c.isAlphanum

/-- The expression of the template engine at the beginning of a text, configobj.py 436-455. -/
def matchDollar : Text → Option (Tok × Text)
  | '$' :: '$' :: u => some (.text ['$'], u)
  | '$' :: '{' :: u =>
    match u.dropWhile (fun c => c != '}') with
    | '}' :: rest => some (.ref (u.takeWhile (fun c => c != '}')), rest)
    | _ => Option.none
  | '$' :: c :: u => if nameStart c then some (.ref (c :: u.takeWhile nameChar), u.dropWhile nameChar) else Option.none
  | _ => Option.none

/-- The two engines, configobj.py 420-460. -/
inductive Engine
  | percent | dollar
deriving DecidableEq

/-- `_cookie`. -/
def cookie : Engine → Char
  | .percent => '%'
  | .dollar => '$'

/-- `_KEYCRE.match`. -/
def matchAt : Engine → Text → Option (Tok × Text)
  | .percent => matchPercent
  | .dollar => matchDollar

/-- The matches of `_KEYCRE.search` one after the other, and the characters between them, configobj.py 336-354: the search goes on
after the replacement, so it only ever sees what followed the match.  Every match takes at least one character, so as many rounds
as characters are enough. -/
def scan (e : Engine) : Nat → Text → List Tok
  | 0, _ => []
  | _ + 1, [] => []
  | n + 1, c :: u =>
    match matchAt e (c :: u) with
    | some (t, rest) => t :: scan e n rest
    | Option.none => .text [c] :: scan e n u

/-- The tokens of a text. -/
def tokens (e : Engine) (t : Text) : List Tok := scan e t.length t

/-! ## Looking up a key -/

/-- `val is not None and not isinstance(val, Section)`. -/
def usable : Option Val → Option Val
  | some .none => Option.none
  | some (.sect _) => Option.none
  | v => v

/-- What `current_section.get('DEFAULT', {})` answers to `.get(key)`, configobj.py 385; AttributeError for something that is not a section. -/
def default (l : Level) (k : Text) : Except Err (Option Val) :=
  match assoc l.opts "DEFAULT".toList with
  | Option.none => .ok Option.none
  | some (.sect o) => .ok (assoc o k)
  | some _ => .error .attribute

/-- `_fetch`, configobj.py 367-400: from the section to the main one, which comes last.  At the top the last value is taken even if it is a section;
`None` is the missing option. -/
def fetch : List Level → Text → Except Err (Val × Option Text)
  | [], k => .error (.missing k)
  | l :: up, k =>
    match usable (assoc l.opts k) with
    | some v => .ok (v, l.name)
    | Option.none => match default l k with
      | .error e => .error e
      | .ok d => match usable d with
        | some v => .ok (v, l.name)
        | Option.none => match up with
          | _ :: _ => fetch up k
          | [] => match d with
            | some (.sect o) => .ok (.sect o, l.name)
            | _ => .error (.missing k)

/-! ## Interpolation -/

/-- The `while` loop over the matches, configobj.py 336-354, given what a key is replaced by. -/
def expandWith (f : Text → Except Err Text) : List Tok → Except Err Text
  | [] => .ok []
  | .text t :: ts => match expandWith f ts with
    | .error e => .error e
    | .ok r => .ok (t ++ r)
  | .ref k :: ts => match f k with
    | .error e => .error e
    | .ok r => match expandWith f ts with
      | .error e => .error e
      | .ok r' => .ok (r ++ r')

/-- `_parse_match` and `recursive_interpolate`, configobj.py 318-359: `back` are the pairs on the trail.  The engine always fetches from
its own section. -/
def expandKey (e : Engine) (chain : List Level) : Nat → List (Text × Option Text) → Text → Except Err Text
  | 0, _, _ => .error .fuel
  | n + 1, back, k =>
    match fetch chain k with
    | .error x => .error x
    | .ok (v, s) =>
      if (k, s) ∈ back then .error (.loop k)
      else match v with
        | .str t => expandWith (expandKey e chain n ((k, s) :: back)) (tokens e t)
        | _ => .error .type

/-- The keys of a `DEFAULT` section. -/
def keysOf : Option Val → List Text
  | some (.sect o) => o.map Prod.fst
  | _ => []

/-- All the keys a chain knows. -/
def allKeys : List Level → List Text
  | [] => []
  | l :: up => l.opts.map Prod.fst ++ keysOf (assoc l.opts "DEFAULT".toList) ++ allKeys up

/-- `interpolate`, configobj.py 316-365.  The trail cannot become longer than the number of keys. -/
def interpolate (e : Engine) (chain : List Level) (key : Text) (value : Text) : Except Err Text :=
  if cookie e ∈ value then
    expandWith (expandKey e chain ((allKeys chain).length + 1) [(key, (chain.head?.bind Level.name))]) (tokens e value)
  else .ok value

/-! ## Reading an item -/

/-- `main.interpolation`. -/
inductive Setting
  | off
  | on
  | named (s : String)
deriving DecidableEq

/-- The engine of a name, configobj.py 549-553, 457-460. -/
def engineOf : Setting → Option Engine
  | .off => Option.none
  | .on => some .percent
  | .named s => if s.toLower = "configparser" then some .percent else if s.toLower = "template" then some .dollar else Option.none

/-- What is left of `main.interpolation` after an interpolation that was on: `_fetch` switches it off, and an AttributeError in the middle
of it means that it is not restored, configobj.py 372-374, 396. -/
def settingAfter (m : Setting) (r : Except Err Val) : Setting :=
  match r with
  | .error .attribute => .off
  | _ => m

/-- The list comprehension of `__getitem__`, configobj.py 573-577. -/
def entries (f : Text → Except Err Text) : List Entry → Except Err (List Entry)
  | [] => .ok []
  | .other :: l => match entries f l with
    | .error e => .error e
    | .ok r => .ok (.other :: r)
  | .str t :: l => match f t with
    | .error e => .error e
    | .ok t' => match entries f l with
      | .error e => .error e
      | .ok r => .ok (.str t' :: r)

/-- Whether a value makes `__getitem__` call `_interpolate`: strings and lists with a string, configobj.py 570-577. -/
def asksEngine : Val → Bool
  | .str _ => true
  | .list l => l.any fun x => decide (x ≠ .other)
  | _ => false

/-- What an unknown engine does to a value, configobj.py 549-557: it is returned as it is, but for the second string of a list the name of
the engine is `False`, which has no `lower`. -/
def noEngine : Val → Except Err Val
  | .list l => if (l.filter fun x => decide (x ≠ .other)).length ≤ 1 then .ok (.list l) else .error .attribute
  | v => .ok v

/-- A value interpolated by an engine, configobj.py 570-580. -/
def interpVal (e : Engine) (chain : List Level) (key : Text) (v : Val) : Except Err Val :=
  match v with
  | .str t => match interpolate e chain key t with
    | .error x => .error x
    | .ok r => .ok (.str r)
  | .list l => match entries (interpolate e chain key) l with
    | .error x => .error x
    | .ok r => .ok (.list r)
  | v => .ok v

/-- `section[key]`, configobj.py 540-580: `cache` is `_interpolation_engine` of the section; the result is the setting and the cache afterwards,
and the value.  The engine is chosen once, the first time one is needed; an unknown name switches interpolation off. -/
def getitem (m : Setting) (cache : Option Engine) (chain : List Level) (key : Text) : Setting × Option Engine × Except Err Val :=
  match chain with
  | [] => (m, cache, .error .key)
  | l :: _ =>
    match assoc l.opts key with
    | Option.none => (m, cache, .error .key)
    | some v =>
      if m = .off ∨ m = .named "" then (m, cache, .ok v)
      else if asksEngine v = false then (m, cache, .ok v)
      else match cache with
        | some e => (settingAfter m (interpVal e chain key v), some e, interpVal e chain key v)
        | Option.none => match engineOf m with
          | Option.none => (.off, Option.none, noEngine v)
          | some e => (settingAfter m (interpVal e chain key v), some e, interpVal e chain key v)

end Verif.ConfigInterp
