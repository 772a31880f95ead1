import Mathlib.Data.List.Basic
import Mathlib.Data.List.Range
import Mathlib.Data.List.Nodup

/-!
# The to-do list of a module (astropysics/sphinxext/todomod.py, `TodoModule.run`, 30-71) (C249)

Parameters: what `ModuleAnalyzer.for_module` finds, the lines of the file, and whether `_` is a name (the file does not import it; some versions of sphinx make it a builtin).
Of a to-do node its text and its classes are modelled; the title is the same for all of them.
-/

namespace Verif.TodoMod

/-- Line 46-47: `text.replace(pat,'')`: from the left, without looking again at what is left. -/
def remove (pat : List Char) : ℕ → List Char → List Char
  | _, [] => []
  | k + 1, _ :: s => remove pat k s
  | 0, c :: s => if pat.isPrefixOf (c :: s) then remove pat (pat.length - 1) s else c :: remove pat 0 s

/-- All of the text; the number is how much of a match is still to be left out. -/
def replace (pat s : List Char) : List Char := remove pat 0 s

/-- What `str.strip` removes. -/
def isSpace (c : Char) : Bool := c = ' ' || c = '\t' || c = '\n' || c = '\r' || c = '\x0b' || c = '\x0c'

/-- `str.strip()`. -/
def strip (s : List Char) : List Char := ((s.dropWhile isSpace).reverse.dropWhile isSpace).reverse

/-- Line 41: `l.startswith('#TODO')`. -/
def isTodo (l : List Char) : Bool := "#TODO".toList.isPrefixOf l

/-- Line 46. -/
def text (l : List Char) : List Char := strip (replace "#TODO".toList (replace "#TODO:".toList l))

inductive Node
  | warning (modname : List Char)
  | target (id : ℕ)
  | todo (text : List Char) (classes : List (List Char))
  deriving DecidableEq

inductive Err
  | name
  | io
  deriving DecidableEq, Repr

/-- Line 60-63: the classes: those of the option, or the one of the title `Module Todo`. -/
def classes (opt : Option (List (List Char))) : List (List Char) := opt.getD ["admonition-module-todo".toList]

/-- The loop, todomod.py 45-70: the nodes and the new number of the environment. -/
def loop (gettext : Bool) (opt : Option (List (List Char))) : ℕ → List (List Char) → Except Err (List Node) × ℕ
  | n, [] => (.ok [], n)
  | n, l :: ls =>
    if gettext then
      let r := loop gettext opt (n + 1) ls
      (r.1.map fun ns => .target n :: .todo (text l) (classes opt) :: ns, r.2)
    else (.error .name, n + 1)

/-- `TodoModule.run`, todomod.py 31-71: `srcname` gives the file of the module (`none`: PycodeError), `read` its lines (`none`: IOError). -/
def run (srcname : List Char → Option (List Char)) (read : List Char → Option (List (List Char))) (gettext : Bool) (modname : List Char)
    (opt : Option (List (List Char))) (n : ℕ) : Except Err (List Node) × ℕ :=
  match srcname modname with
  | none => (.ok [.warning modname], n)
  | some fn =>
    match read fn with
    | none => (.error .io, n)
    | some ls => loop gettext opt n (ls.filter isTodo)

/-! ## Properties -/

theorem loop_ok (opt) (n : ℕ) (ls : List (List Char)) :
    loop true opt n ls = (.ok ((ls.zipIdx n).flatMap fun p => [.target p.2, .todo (text p.1) (classes opt)]), n + ls.length) := by
  induction ls generalizing n with
  | nil => rfl
  | cons l ls ih =>
    simp only [loop, if_true, ih (n + 1), List.zipIdx_cons, List.flatMap_cons, List.length_cons]
    refine Prod.ext rfl ?_
    show n + 1 + ls.length = n + (ls.length + 1)
    omega

/-- **Complete**: a module that is found gives a target and a to-do node for each line that begins with `#TODO`, in order, with numbers that follow the last one. -/
theorem complete (srcname read) (m : List Char) (opt) (n : ℕ) (fn : List Char) (ls : List (List Char)) (h : srcname m = some fn) (hr : read fn = some ls) :
    run srcname read true m opt n =
      (.ok (((ls.filter isTodo).zipIdx n).flatMap fun p => [.target p.2, .todo (text p.1) (classes opt)]), n + (ls.filter isTodo).length) := by
  simp [run, h, hr, loop_ok]

/-- The numbers of the targets. -/
def ids (l : List Node) : List ℕ := l.filterMap fun | .target i => some i | _ => none

theorem ids_flat (opt) (l : List (List Char × ℕ)) :
    ids (l.flatMap fun p => [.target p.2, .todo (text p.1) (classes opt)]) = l.map (·.2) := by
  induction l with
  | nil => rfl
  | cons p l ih =>
    simp only [List.flatMap_cons, List.map_cons]
    rw [← ih]
    rfl

/-- **Distinct**: whatever happens before, no two targets of a page, of one or of several directives, have the same number. -/
theorem distinct (srcname read) (m m' : List Char) (opt opt') (n : ℕ) (a b : List Node) (n' n'' : ℕ)
    (h : run srcname read true m opt n = (.ok a, n')) (h' : run srcname read true m' opt' n' = (.ok b, n'')) : (ids (a ++ b)).Nodup := by
  have key : ∀ m opt n a n', run srcname read true m opt n = (.ok a, n') → ∃ k, ids a = List.range' n k ∧ n' = n + k := by
    intro m opt n a n' h
    unfold run at h
    cases hs : srcname m with
    | none =>
      simp only [hs, Prod.mk.injEq, Except.ok.injEq] at h
      exact ⟨0, by rw [← h.1]; rfl, h.2.symm⟩
    | some fn =>
      cases hr : read fn with
      | none => simp [hs, hr] at h
      | some ls =>
        simp only [hs, hr, loop_ok, Prod.mk.injEq, Except.ok.injEq] at h
        refine ⟨(ls.filter isTodo).length, ?_, h.2.symm⟩
        rw [← h.1, ids_flat, List.zipIdx_map_snd]
  obtain ⟨k, hk, rfl⟩ := key _ _ _ _ _ h
  obtain ⟨k', hk', rfl⟩ := key _ _ _ _ _ h'
  have : ids (a ++ b) = List.range' n (k + k') := by
    unfold ids at hk hk' ⊢
    rw [List.filterMap_append, hk, hk', List.range'_append_1]
  rw [this]
  exact List.nodup_range'

/-- **Lines**: the lines that are meant are those that begin with the word, at the margin. -/
theorem lines (l : List Char) : isTodo l = true ↔ ∃ s, l = "#TODO".toList ++ s := by
  unfold isTodo
  rw [List.isPrefixOf_iff_prefix]
  exact exists_congr fun s => eq_comm

/-- **Without `_`**: a module with a to-do line is a NameError, and one without is nothing. -/
theorem no_gettext (srcname read) (m : List Char) (opt) (n : ℕ) (fn : List Char) (ls : List (List Char)) (h : srcname m = some fn) (hr : read fn = some ls) :
    ((∃ s, "#TODO".toList ++ s ∈ ls) → (run srcname read false m opt n).1 = .error .name) ∧
      ((¬ ∃ s, "#TODO".toList ++ s ∈ ls) → run srcname read false m opt n = (.ok [], n)) := by
  simp only [run, h, hr]
  cases hf : ls.filter isTodo with
  | nil =>
    refine ⟨?_, fun _ => rfl⟩
    rintro ⟨s, hl⟩
    exact absurd ((lines _).2 ⟨s, rfl⟩) (List.filter_eq_nil_iff.1 hf _ hl)
  | cons l t =>
    refine ⟨fun _ => rfl, fun hn => absurd ?_ hn⟩
    have : l ∈ ls.filter isTodo := by rw [hf]; simp
    obtain ⟨s, rfl⟩ := (lines l).1 (List.mem_filter.1 this).2
    exact ⟨s, (List.mem_filter.1 this).1⟩

/-- **Not found**: one warning, and the environment as it was. -/
theorem not_found (srcname read) (g) (m : List Char) (opt) (n : ℕ) (h : srcname m = none) : run srcname read g m opt n = (.ok [.warning m], n) := by
  simp [run, h]

theorem remove_none (q : List Char) (s : List Char) (h : '#' ∉ s) : remove ('#' :: q) 0 s = s := by
  induction s with
  | nil => rfl
  | cons c s ih =>
    simp only [List.mem_cons, not_or] at h
    rw [remove, if_neg, ih h.2]
    simp [h.1]

theorem remove_skip (p : List Char) (q s : List Char) : remove p q.length (q ++ s) = remove p 0 s := by
  induction q with
  | nil => rfl
  | cons c q ih => simpa [remove] using ih

theorem replace_front (q s : List Char) (h : '#' ∉ s) : replace ('#' :: q) (('#' :: q) ++ s) = s := by
  unfold replace
  rw [List.cons_append, remove, if_pos (by simp)]
  exact (remove_skip _ q s).trans (remove_none q s h)

/-- **Text with a colon**: what is after the colon, without white space around it. -/
theorem text_colon (s : List Char) (h : '#' ∉ s) : text ("#TODO:".toList ++ s) = strip s := by
  unfold text
  have h1 := replace_front "TODO:".toList s h
  have h2 : replace "#TODO".toList s = s := remove_none "TODO".toList s h
  have e : "#TODO:".toList = '#' :: "TODO:".toList := by decide
  rw [e, h1, h2]

/-- **Text without a colon**: what is after the word. -/
theorem text_plain (s : List Char) (h : '#' ∉ s) (hc : s.head? ≠ some ':') : text ("#TODO".toList ++ s) = strip s := by
  unfold text
  have e : "#TODO:".toList = '#' :: "TODO:".toList := by decide
  have e' : "#TODO".toList = '#' :: "TODO".toList := by decide
  have h1 : replace ('#' :: "TODO:".toList) ('#' :: "TODO".toList ++ s) = '#' :: "TODO".toList ++ s := by
    unfold replace
    rw [List.cons_append, remove, if_neg]
    · rw [remove_none _ _ (by
        intro hm
        rcases List.mem_append.1 hm with hm | hm
        · revert hm; decide
        · exact h hm)]
    · intro hp
      rw [List.isPrefixOf_iff_prefix] at hp
      have e2 : '#' :: "TODO:".toList = ('#' :: "TODO".toList) ++ [':'] := by decide
      rw [e2, ← List.cons_append, List.prefix_append_right_inj] at hp
      obtain ⟨t, rfl⟩ := hp
      exact hc rfl
  have h2 := replace_front "TODO".toList s h
  rw [e, e', h1, h2]

/-- What is at the ends of the text is no white space. -/
theorem strip_ends (s : List Char) (c : Char) (h : (strip s).head? = some c ∨ (strip s).getLast? = some c) : isSpace c = false := by
  have hd : ∀ (l : List Char) c, (l.dropWhile isSpace).head? = some c → isSpace c = false := by
    intro l c hl
    have := List.head?_dropWhile_not isSpace l
    rw [hl] at this
    simpa using this
  rcases h with h | h
  · unfold strip at h
    generalize ht : s.dropWhile isSpace = t at h
    have hp : (t.reverse.dropWhile isSpace).reverse <+: t := by
      have := List.dropWhile_suffix (l := t.reverse) isSpace
      rw [← List.reverse_prefix] at this
      simpa using this
    obtain ⟨u, hu⟩ := hp
    have : t.head? = some c := by
      rw [← hu, List.head?_append, h]
      rfl
    rw [← ht] at this
    exact hd s c this
  · unfold strip at h
    rw [List.getLast?_reverse] at h
    exact hd _ c h

def file : List (List Char) := ["import x\n".toList, "#TODO: all of it \n".toList, "  #TODO: not seen\n".toList, "#TODO later\n".toList]

example : (run (fun _ => some []) (fun _ => some file) true "m".toList none 3).2 = 5 := by decide +kernel
example : (run (fun _ => some []) (fun _ => some file) true "m".toList none 3).1.toOption =
    some [.target 3, .todo "all of it".toList ["admonition-module-todo".toList], .target 4, .todo "later".toList ["admonition-module-todo".toList]] := by
  decide +kernel

end Verif.TodoMod
