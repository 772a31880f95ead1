import Verif.Indent
import Verif.InstallTool

/-!
# The setup tool for IPython (astropysics/config.py 562-665, data/ipython_config_astpys.py) (C212)

A run of `run_ipython_setup` on any list of lines typed by the user.  Which modules can be imported, the version, the templates of the package and the file that is
there already are parameters; printing is left out.
-/

namespace Verif.IpythonSetup

open Verif.InstallTool (strip isSpace Blank strip_blank strip_cut blank_iff)

abbrev Text := List Char

/-- How a run ends. -/
inductive End
  | notInstalled
  | value
  | eof
  | kept
  | written
  deriving DecidableEq

/-- What the tool finds: IPython or not, its version, the two templates, the backend of matplotlib, the system and the modules that can be imported. -/
structure World where
  installed : Bool
  major : ℕ
  minor : ℕ
  old : Text
  new : Text
  backend : Option Text
  darwin : Bool
  importable : String → Bool

/-- A question with a default, config.py 606-613, 637-644: the answer is taken as typed. -/
def choose (default : Option Text) : List Text → Option (Text × List Text)
  | [] => none
  | l :: rest => if strip l = [] then (match default with
      | none => choose none rest
      | some d => some (d, rest)) else some (l, rest)

/-- config.py 623-635. -/
def toolkits : List (String × Text) :=
  [("wx", "wx".toList), ("PyQt4", "qt".toList), ("gtk", "gtk".toList), ("Tkinter", "tk".toList), ("tkinter", "tk".toList)]

/-- The default of the toolkit, config.py 617-635. -/
def guess (w : World) : Option Text :=
  if w.darwin then some "osx".toList else ((toolkits.find? fun p => w.importable p.1).map (·.2))

/-- `s.replace(old,new)` -/
def replace (old new s : Text) : Text := Indent.replaceAll old new s.length s

def mplback : Text := "{MPLBACK}".toList
def guitk : Text := "{GUITK}".toList

/-- The text for the file, config.py 582-648. -/
def content (w : World) (lines : List Text) : Except End (Text × List Text) :=
  if w.major = 0 ∧ w.minor = 10 then .ok (w.old, lines)
  else if (w.major = 0 ∧ 11 ≤ w.minor) ∨ 0 < w.major then
    match choose w.backend lines with
    | none => .error .eof
    | some (b, lines) => match choose (guess w) lines with
      | none => .error .eof
      | some (t, lines) => .ok (replace guitk t (replace mplback b w.new), lines)
  else .error .value

/-- Asking whether to overwrite, config.py 652-660. -/
def confirm : List Text → Option (Bool × List Text)
  | [] => none
  | l :: rest =>
    let a := (strip l).map Char.toLower
    if strip l = [] ∨ a = ['y'] then some (true, rest)
    else if a = ['n'] then some (false, rest)
    else confirm rest

/-- `run_ipython_setup`: how it ends, the file afterwards, and the lines not read. -/
def setup (w : World) (file : Option Text) (lines : List Text) : End × Option Text × List Text :=
  if w.installed = false then (.notInstalled, file, lines) else
  match content w lines with
  | .error .eof => (.eof, file, [])
  | .error e => (e, file, lines)
  | .ok (t, lines) => match file with
    | none => (.written, some t, lines)
    | some _ => match confirm lines with
      | none => (.eof, file, [])
      | some (true, lines) => (.written, some t, lines)
      | some (false, lines) => (.kept, file, lines)

/-! ## Questions -/

/-- A line that is not white space only. -/
def Says (l : Text) : Prop := ¬ Blank l

theorem strip_nil (l : Text) : strip l = [] ↔ Blank l := by
  constructor
  · intro h
    obtain ⟨a, b, ha, hb, e⟩ := strip_cut l
    rw [h, List.append_nil] at e
    rw [e]
    intro c hc
    rcases List.mem_append.1 hc with h | h
    · exact ha c h
    · exact hb c h
  · intro h
    have := strip_blank l [] [] h (by simp [Blank]) (by simp) (by simp)
    simpa using this

/-- C212: with a default, exactly one line is read: white space takes the default, anything else is the answer, as typed. -/
theorem with_default (d l : Text) (rest : List Text) :
    choose (some d) [] = none ∧ (Blank l → choose (some d) (l :: rest) = some (d, rest)) ∧ (Says l → choose (some d) (l :: rest) = some (l, rest)) := by
  refine ⟨rfl, fun h => ?_, fun h => ?_⟩
  · simp [choose, (strip_nil l).2 h]
  · have : strip l ≠ [] := fun e => h ((strip_nil l).1 e)
    simp [choose, this]

/-- C212: without one, the answer is the first line that is not white space only; if there is none the input ends. -/
theorem without_default (lines : List Text) (v : Text) (rest : List Text) :
    (choose none lines = some (v, rest) ↔ ∃ bl, lines = bl ++ v :: rest ∧ (∀ l ∈ bl, Blank l) ∧ Says v) ∧
    (choose none lines = none ↔ ∀ l ∈ lines, Blank l) := by
  induction lines with
  | nil => exact ⟨⟨fun h => by simp [choose] at h, fun ⟨bl, h, _⟩ => by simp at h⟩, by simp [choose]⟩
  | cons x lines ih =>
    by_cases hx : Blank x
    · have e : choose none (x :: lines) = choose none lines := by simp [choose, (strip_nil x).2 hx]
      rw [e, ih.1, ih.2]
      constructor
      · constructor
        · rintro ⟨bl, rfl, h1, h2⟩
          exact ⟨x :: bl, rfl, by simpa using ⟨hx, h1⟩, h2⟩
        · rintro ⟨bl, h, h1, h2⟩
          cases bl with
          | nil =>
            simp only [List.nil_append, List.cons.injEq] at h
            exact absurd (h.1 ▸ hx) h2
          | cons y bl =>
            simp only [List.cons_append, List.cons.injEq] at h
            exact ⟨bl, h.2, fun l hl => h1 l (by simp [hl]), h2⟩
      · simp [hx]
    · have hs : strip x ≠ [] := fun e => hx ((strip_nil x).1 e)
      have e : choose none (x :: lines) = some (x, lines) := by simp [choose, hs]
      rw [e]
      constructor
      · constructor
        · rintro h
          simp only [Option.some.injEq, Prod.mk.injEq] at h
          exact ⟨[], by simp [h.1, h.2], by simp, h.1 ▸ hx⟩
        · rintro ⟨bl, h, h1, h2⟩
          cases bl with
          | nil =>
            simp only [List.nil_append, List.cons.injEq] at h
            rw [h.1, h.2]
          | cons y bl =>
            simp only [List.cons_append, List.cons.injEq] at h
            exact absurd (h.1 ▸ h1 y (by simp)) hx
      · simp only [reduceCtorEq, false_iff]
        exact fun h => hx (h x (by simp))

/-- C212: the default toolkit is the one of the Mac there, else that of the first module of wx, PyQt4, gtk and Tk that can be imported; there is none exactly if
none of them can. -/
theorem default_toolkit (w : World) :
    (w.darwin = true → guess w = some "osx".toList) ∧
    (w.darwin = false →
      (w.importable "wx" = true → guess w = some "wx".toList) ∧
      (w.importable "wx" = false → w.importable "PyQt4" = true → guess w = some "qt".toList) ∧
      (w.importable "wx" = false → w.importable "PyQt4" = false → w.importable "gtk" = true → guess w = some "gtk".toList) ∧
      (w.importable "wx" = false → w.importable "PyQt4" = false → w.importable "gtk" = false → (w.importable "Tkinter" = true ∨ w.importable "tkinter" = true) →
        guess w = some "tk".toList) ∧
      (guess w = none ↔ w.importable "wx" = false ∧ w.importable "PyQt4" = false ∧ w.importable "gtk" = false ∧ w.importable "Tkinter" = false ∧
        w.importable "tkinter" = false)) := by
  refine ⟨fun h => by simp [guess, h], fun h => ?_⟩
  cases h1 : w.importable "wx" <;> cases h2 : w.importable "PyQt4" <;> cases h3 : w.importable "gtk" <;> cases h4 : w.importable "Tkinter" <;>
    cases h5 : w.importable "tkinter" <;> simp [guess, h, toolkits, List.find?, h1, h2, h3, h4, h5]

/-! ## The file -/

theorem replaceAll_skip (old new : Text) (c : Char) (o : Text) (ho : old = c :: o) (a : Text) (ha : c ∉ a) (f : ℕ) (b : Text) :
    Indent.replaceAll old new (a.length + f) (a ++ b) = a ++ Indent.replaceAll old new f b := by
  subst ho
  induction a with
  | nil => simp
  | cons x a ih =>
    have hx : x ≠ c := fun h => ha (by simp [h])
    rw [List.length_cons, show a.length + 1 + f = (a.length + f) + 1 by omega, List.cons_append, Indent.replaceAll, if_neg]
    · rw [ih fun h => ha (by simp [h])]; rfl
    · rintro ⟨h, -⟩
      simp only [List.isPrefixOf, Bool.and_eq_true, beq_iff_eq] at h
      exact hx h.1.symm

theorem replaceAll_none' (old new : Text) (c : Char) (o : Text) (ho : old = c :: o) (a : Text) (ha : c ∉ a) (f : ℕ) :
    Indent.replaceAll old new (a.length + f) a = a := by
  have := replaceAll_skip old new c o ho a ha f []
  rw [List.append_nil] at this
  rw [this]
  cases f <;> simp [Indent.replaceAll]

theorem replaceAll_hit (old new : Text) (c : Char) (o : Text) (ho : old = c :: o) (f : ℕ) (b : Text) :
    Indent.replaceAll old new (f + 1) (old ++ b) = new ++ Indent.replaceAll old new f b := by
  subst ho
  rw [List.cons_append, Indent.replaceAll, if_pos]
  · rw [← List.cons_append, List.drop_left]
  · exact ⟨by rw [← List.cons_append, List.isPrefixOf_iff_prefix]; exact List.prefix_append _ _, by simp⟩

/-- One replacement between texts without the first letter of what is replaced. -/
theorem replace_one (old new : Text) (c : Char) (o : Text) (ho : old = c :: o) (a b : Text) (ha : c ∉ a) (hb : c ∉ b) :
    replace old new (a ++ old ++ b) = a ++ new ++ b := by
  unfold replace
  have hl : (a ++ old ++ b).length = a.length + ((b.length + o.length) + 1) := by simp [ho]; omega
  rw [hl, List.append_assoc, replaceAll_skip old new c o ho a ha, replaceAll_hit old new c o ho, replaceAll_none' old new c o ho b hb, List.append_assoc]

/-- C212: for a template with the two placeholders and no other braces, and answers without braces, the file is the template with each placeholder replaced by its
answer. -/
theorem filled (a b c back tk : Text) (ha : '{' ∉ a) (hb : '{' ∉ b) (hc : '{' ∉ c) (hk : '{' ∉ back) :
    replace guitk tk (replace mplback back (a ++ "{MPLBACK}".toList ++ b ++ "{GUITK}".toList ++ c)) = a ++ back ++ b ++ tk ++ c := by
  have h1 : replace mplback back (a ++ mplback ++ b ++ guitk ++ c) = a ++ back ++ b ++ guitk ++ c := by
    unfold replace
    have ho : mplback = '{' :: "MPLBACK}".toList := by decide
    have e : a ++ mplback ++ b ++ guitk ++ c = a ++ (mplback ++ (b ++ guitk ++ c)) := by simp
    have hl : (a ++ (mplback ++ (b ++ guitk ++ c))).length = a.length + (((b ++ guitk ++ c).length + 8) + 1) := by
      rw [List.length_append, List.length_append, show mplback.length = 9 by decide]; omega
    rw [e, hl, replaceAll_skip mplback back '{' _ ho a ha, replaceAll_hit mplback back '{' _ ho]
    have hl2 : (b ++ guitk ++ c).length + 8 = b.length + ((c.length + 14) + 1) := by
      rw [List.length_append, List.length_append, show guitk.length = 7 by decide]; omega
    rw [hl2, List.append_assoc b, replaceAll_skip mplback back '{' _ ho b hb]
    have hg : guitk = '{' :: "GUITK}".toList := by decide
    have hnp : ¬ (mplback.isPrefixOf ('{' :: ("GUITK}".toList ++ c)) = true ∧ mplback ≠ []) := by
      intro h
      have h := h.1
      rw [show mplback = '{' :: 'M' :: "PLBACK}".toList by decide, show "GUITK}".toList = 'G' :: "UITK}".toList by decide] at h
      generalize "PLBACK}".toList = u, "UITK}".toList = v at h
      simp [List.isPrefixOf] at h
    rw [hg, List.cons_append, Indent.replaceAll, if_neg hnp]
    have h6 := replaceAll_none' mplback back '{' _ ho ("GUITK}".toList ++ c) (by simp [hc]) 8
    rw [show ("GUITK}".toList ++ c).length + 8 = c.length + 14 by simp] at h6
    rw [h6]
    simp
  rw [show ("{MPLBACK}".toList) = mplback from rfl, show ("{GUITK}".toList) = guitk from rfl, h1]
  have := replace_one guitk tk '{' "GUITK}".toList (by decide) (a ++ back ++ b) c (by simp [ha, hb, hk]) hc
  exact this

/-- C212: answers to the question whether to overwrite: nothing but white space and y mean yes, n means no (small or capital), anything else is asked again. -/
theorem asked_again (l : Text) (rest : List Text) :
    (Blank l → confirm (l :: rest) = some (true, rest)) ∧
    (∀ x y c, Blank x → Blank y → l = x ++ [c] ++ y →
      (c = 'y' ∨ c = 'Y' → confirm (l :: rest) = some (true, rest)) ∧ (c = 'n' ∨ c = 'N' → confirm (l :: rest) = some (false, rest)) ∧
      (c ≠ 'y' → c ≠ 'Y' → c ≠ 'n' → c ≠ 'N' → isSpace c = false → confirm (l :: rest) = confirm rest)) ∧
    (2 ≤ (strip l).length → confirm (l :: rest) = confirm rest) ∧ confirm [] = none := by
  refine ⟨fun h => by simp [confirm, (strip_nil l).2 h], fun x y c hx hy hl => ?_, fun h => ?_, rfl⟩
  · have hs : isSpace c = false → strip l = [c] := by
      intro hc
      rw [hl]
      refine strip_blank x [c] y hx hy (fun c' r h => ?_) fun c' r h => ?_
      · simp only [List.cons.injEq] at h; rw [← h.1]; exact hc
      · have := congrArg List.getLast? h
        simp only [List.getLast?_singleton, List.getLast?_append, Option.some_or, Option.some.injEq] at this
        rw [← this]; exact hc
    refine ⟨?_, ?_, fun h1 h2 h3 h4 hc => ?_⟩
    · rintro (rfl | rfl)
      · simp [confirm, hs (by decide), show Char.toLower 'y' = 'y' by decide]
      · simp [confirm, hs (by decide), show Char.toLower 'Y' = 'y' by decide]
    · rintro (rfl | rfl)
      · simp [confirm, hs (by decide), show Char.toLower 'n' = 'n' by decide]
      · simp [confirm, hs (by decide), show Char.toLower 'N' = 'n' by decide]
    · have hy' : c.toLower ≠ 'y' := fun h => by
        rcases (InstallTool.lower_one c 'y' (by simp)).1 h with h | h
        · exact h1 h
        · exact h2 (h.trans (by decide))
      have hn' : c.toLower ≠ 'n' := fun h => by
        rcases (InstallTool.lower_one c 'n' (by simp)).1 h with h | h
        · exact h3 h
        · exact h4 (h.trans (by decide))
      simp [confirm, hs hc, hy', hn']
  · have h0 : strip l ≠ [] := by intro e; simp [e] at h
    have h1 : ∀ z, (strip l).map Char.toLower ≠ [z] := by
      intro z e
      have := congrArg List.length e
      simp at this; omega
    simp [confirm, h0, h1]

/-- C212: only a run that ends by writing changes the file; every run that asked for more lines than there were, was told no, or found no IPython or an old one,
leaves it. -/
theorem untouched (w : World) (file : Option Text) (lines : List Text) : (setup w file lines).1 ≠ .written → (setup w file lines).2.1 = file := by
  unfold setup
  split_ifs
  · exact fun _ => rfl
  · split
    · exact fun _ => rfl
    · exact fun _ => rfl
    · cases file with
      | none => exact fun h => absurd rfl h
      | some f =>
        simp only
        split
        · exact fun _ => rfl
        · exact fun h => absurd rfl h
        · exact fun _ => rfl

/-- C212: no question is asked about a file that is not there, and none at all for IPython 0.10. -/
theorem version_010 (w : World) (hi : w.installed = true) (h : w.major = 0 ∧ w.minor = 10) (lines : List Text) (f : Text) :
    setup w none lines = (.written, some w.old, lines) ∧
    (∀ l rest, lines = l :: rest → Blank l → setup w (some f) lines = (.written, some w.old, rest)) := by
  refine ⟨by simp [setup, hi, content, h.1, h.2], ?_⟩
  rintro l rest rfl hl
  simp [setup, hi, content, h.1, h.2, (asked_again l rest).1 hl]

/-- C212: IPython before 0.10 is a ValueError before any question; without IPython nothing happens. -/
theorem too_old (w : World) (file : Option Text) (lines : List Text) :
    (w.installed = false → setup w file lines = (.notInstalled, file, lines)) ∧
    (w.installed = true → ((setup w file lines).1 = .value ↔ w.major = 0 ∧ w.minor < 10)) ∧
    (w.installed = true → w.major = 0 → w.minor < 10 → setup w file lines = (.value, file, lines)) := by
  refine ⟨fun h => by simp [setup, h], fun h => ?_, fun h h1 h2 => ?_⟩
  · constructor
    · intro hv
      by_contra hn
      revert hv
      unfold setup
      rw [if_neg (by simp [h])]
      unfold content
      by_cases h10 : w.major = 0 ∧ w.minor = 10
      · rw [if_pos h10]
        simp only
        cases file with
        | none => simp
        | some f => simp only; split <;> simp
      · rw [if_neg h10, if_pos (by omega)]
        cases choose w.backend lines with
        | none => simp
        | some p =>
          obtain ⟨b, l1⟩ := p
          simp only
          cases choose (guess w) l1 with
          | none => simp
          | some q =>
            obtain ⟨t, l2⟩ := q
            simp only
            cases file with
            | none => simp
            | some f => simp only; split <;> simp
    · rintro ⟨h1, h2⟩
      simp [setup, h, content, h1, show ¬ w.minor = 10 by omega, show ¬ 11 ≤ w.minor by omega]
  · simp [setup, h, content, h1, show ¬ w.minor = 10 by omega, show ¬ 11 ≤ w.minor by omega]

/-- C212: a whole dialogue with a newer IPython: the two answers are written into the template; if there is a file, this happens after a yes. -/
theorem dialogue (w : World) (hi : w.installed = true) (hv : (w.major = 0 ∧ 11 ≤ w.minor) ∨ 0 < w.major) (a b c : Text)
    (ht : w.new = a ++ "{MPLBACK}".toList ++ b ++ "{GUITK}".toList ++ c) (ha : '{' ∉ a) (hb : '{' ∉ b) (hc : '{' ∉ c)
    (lines l1 l2 : List Text) (back tk : Text) (h1 : choose w.backend lines = some (back, l1)) (h2 : choose (guess w) l1 = some (tk, l2)) (hk : '{' ∉ back) :
    setup w none lines = (.written, some (a ++ back ++ b ++ tk ++ c), l2) ∧
    ∀ f,
      (∀ l3, confirm l2 = some (true, l3) → setup w (some f) lines = (.written, some (a ++ back ++ b ++ tk ++ c), l3)) ∧
      (∀ l3, confirm l2 = some (false, l3) → setup w (some f) lines = (.kept, some f, l3)) ∧
      (confirm l2 = none → setup w (some f) lines = (.eof, some f, [])) := by
  have hcont : content w lines = .ok (a ++ back ++ b ++ tk ++ c, l2) := by
    unfold content
    rw [if_neg (by omega), if_pos hv, h1]
    simp only [h2]
    rw [ht, filled a b c back tk ha hb hc hk]
  unfold setup
  simp only [hi, Bool.true_eq_false, if_false, hcont]
  refine ⟨trivial, fun f => ⟨fun l3 h => by simp [h], fun l3 h => by simp [h], fun h => by simp [h]⟩⟩

/-! ## Instances -/

/-- The part of the template with the placeholders, data/ipython_config_astpys.py 38-39. -/
def template : Text := "matplotlib.use('{MPLBACK}')\nguiapp = %gui {GUITK}\n".toList

def world : World := ⟨true, 0, 11, [], template, none, false, fun s => s = "gtk"⟩

example : setup world (some []) ["".toList, " ".toList, "Agg".toList, "".toList, "maybe".toList, " Y ".toList, "x".toList] =
    (.written, some "matplotlib.use('Agg')\nguiapp = %gui gtk\n".toList, ["x".toList]) := by decide +kernel

example : setup world (some []) ["Agg".toList, "qt".toList, "n".toList] = (.kept, some [], []) := by decide +kernel

/-- Limits: the answer is written with its white space, and a backend with the other placeholder in it is replaced once more. -/
example : setup world none [" Agg ".toList, "qt".toList] = (.written, some "matplotlib.use(' Agg ')\nguiapp = %gui qt\n".toList, []) ∧
    setup world none ["{GUITK}".toList, "qt".toList] = (.written, some "matplotlib.use('qt')\nguiapp = %gui qt\n".toList, []) := by decide +kernel

end Verif.IpythonSetup
