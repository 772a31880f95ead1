import Mathlib.Data.List.Basic
import Mathlib.Tactic.Tauto

/-!
# Docstring indentation (astropysics/utils/gen.py 409-536): `change_indentation`, `add_docs` (C97)

Strings are character lists.  White space (`\S`, `str.strip`) is that of byte strings.
-/

namespace Verif.Indent

abbrev Str := List Char

/-- White space of byte strings. -/
def isSpace (c : Char) : Bool := c == ' ' || c == '\t' || c == '\n' || c == '\r' || c == '\x0b' || c == '\x0c'

def lstrip (s : Str) : Str := s.dropWhile isSpace
/-- `s.strip()`. -/
def strip (s : Str) : Str := ((lstrip s).reverse.dropWhile isSpace).reverse

/-- `( *)\S` at the beginning of a text: the number of spaces. -/
def spaces : Str → Option Nat
  | [] => none
  | c :: l => if c = ' ' then (spaces l).map (· + 1) else if isSpace c then none else some 0

/-- `_find_dedent_regex.match(s)`, gen.py 413: `(?:(?:\n\r?)|^)( *)\S`; the number of spaces found.  (After a failed `\n\r?` the other
alternatives fail too, since `\n` and `\r` are white space.) -/
def findDedent : Str → Option Nat
  | '\n' :: '\r' :: l => spaces l
  | '\n' :: l => spaces l
  | l => spaces l

/-- Drop up to `n` spaces: ` {0,n}`. -/
def dropSpaces : Nat → Str → Str
  | 0, l => l
  | n + 1, ' ' :: l => dropSpaces n l
  | _ + 1, l => l

/-- `\r?`. -/
def skipCR : Str → Str
  | '\r' :: l => l
  | l => l

/-- `unindent.sub('\n'+ind, s)`, gen.py 447-451: every `\n\r? {0,n}` is replaced.  Fuel: the length of the text. -/
def sub (n : Nat) (ind : Str) : Nat → Str → Str
  | 0, l => l
  | _ + 1, [] => []
  | f + 1, c :: l =>
    if c = '\n' then '\n' :: ind ++ sub n ind f (dropSpaces n (skipCR l))
    else c :: sub n ind f l

/-- `change_indentation(s,ind)`, gen.py 416-453 (`ind` as a string: `' '*ind` for a number; `None` and `''` give `''`). -/
def changeIndentation (s ind : Str) : Str :=
  match findDedent s with
  | none => s
  | some n => if n = 0 then s else strip (sub n ind s.length s)

/-- `doc.replace(old,new)`: fuel is the length of the text. -/
def replaceAll (old new : Str) : Nat → Str → Str
  | 0, l => l
  | _ + 1, [] => []
  | f + 1, c :: l =>
    if old.isPrefixOf (c :: l) ∧ old ≠ [] then new ++ replaceAll old new f ((c :: l).drop old.length)
    else c :: replaceAll old new f l

/-- `old in doc`. -/
def contains (old : Str) : Str → Bool
  | [] => old.isPrefixOf []
  | c :: l => old.isPrefixOf (c :: l) || contains old l

/-- `'{docstr:%s}'%n`. -/
def placeholder (n : Str) : Str := "{docstr:".toList ++ n ++ ['}']

/-- One round of `_add_docs_deco`, gen.py 472-479, for the indentation of the decorated docstring. -/
def addDoc (indent : Nat) (doc : Str) (nd : Str × Str) : Str :=
  let d := changeIndentation nd.2 (List.replicate indent ' ')
  if contains (placeholder nd.1) doc then replaceAll (placeholder nd.1) d doc.length doc
  else doc ++ '\n' :: (List.replicate indent ' ' ++ d)

/-- `add_docs(*objs)(func)`, gen.py 456-481, 526-528: the new docstring.  `none`: TypeError (the regular expression is applied to the docstring
before it is tested for None).  (`_ignore_add_docs`, used to build documentation, is off.) -/
def addDocs (docs : List (Str × Str)) (doc : Option Str) : Option Str :=
  match doc with
  | none => none
  | some s => some (docs.foldl (addDoc ((findDedent s).getD 0)) s)

/-! ## Specification -/

/-- Lines joined by line ends. -/
def joinLines : List Str → Str
  | [] => []
  | [a] => a
  | a :: b :: l => a ++ '\n' :: joinLines (b :: l)

/-- A line: no line end in it, and no carriage return at its beginning. -/
def Line (l : Str) : Prop := '\n' ∉ l ∧ l.head? ≠ some '\r'

/-! ## Properties -/

theorem spaces_replicate (k : Nat) (c : Char) (l : Str) (hc : isSpace c = false) : spaces (List.replicate k ' ' ++ c :: l) = some k := by
  induction k with
  | zero =>
    have : c ≠ ' ' := by rintro rfl; revert hc; decide
    simp [spaces, this, hc]
  | succ k ih => simp only [List.replicate_succ, List.cons_append, spaces, if_true, ih, Option.map_some]

theorem dropSpaces_replicate (k : Nat) (l : Str) : dropSpaces k (List.replicate k ' ' ++ l) = l := by
  induction k with
  | zero => simp [dropSpaces]
  | succ k ih => simp only [List.replicate_succ, List.cons_append, dropSpaces, ih]

theorem dropSpaces_length (n : Nat) (l : Str) : (dropSpaces n l).length ≤ l.length := by
  induction n generalizing l with
  | zero => exact Nat.le_refl _
  | succ n ih =>
    unfold dropSpaces
    split
    · cases ‹_ + 1 = 0›
    · rename_i heq
      cases heq
      exact Nat.le_trans (ih _) (by simp)
    · exact Nat.le_refl _

theorem skipCR_length (l : Str) : (skipCR l).length ≤ l.length := by
  unfold skipCR; split
  · simp
  · exact Nat.le_refl _

theorem sub_fuel (n : Nat) (ind : Str) : ∀ (m : Nat) (l : Str) (f : Nat), l.length ≤ m → l.length ≤ f → sub n ind f l = sub n ind l.length l := by
  intro m
  induction m with
  | zero =>
    intro l f hm hf
    have : l = [] := List.length_eq_zero_iff.1 (by omega)
    subst this
    cases f <;> rfl
  | succ m ih =>
    intro l f hm hf
    cases l with
    | nil => cases f <;> rfl
    | cons c l =>
      simp only [List.length_cons] at hm hf
      obtain ⟨f, rfl⟩ : ∃ g, f = g + 1 := ⟨f - 1, by omega⟩
      simp only [List.length_cons, sub]
      have h1 := dropSpaces_length n (skipCR l)
      have h2 := skipCR_length l
      split_ifs
      · rw [ih _ f (by omega) (by omega), ih _ l.length (by omega) (by omega)]
      · rw [ih l f (by omega) (by omega)]

/-- The substitution without fuel. -/
def subs (n : Nat) (ind l : Str) : Str := sub n ind l.length l

theorem subs_nil (n : Nat) (ind : Str) : subs n ind [] = [] := rfl
theorem subs_newline (n : Nat) (ind l : Str) : subs n ind ('\n' :: l) = '\n' :: ind ++ subs n ind (dropSpaces n (skipCR l)) := by
  have h1 := dropSpaces_length n (skipCR l)
  have h2 := skipCR_length l
  simp only [subs, List.length_cons, sub, if_true]
  rw [sub_fuel n ind l.length _ l.length (by omega) (by omega)]
theorem subs_cons (n : Nat) (ind : Str) (c : Char) (l : Str) (hc : c ≠ '\n') : subs n ind (c :: l) = c :: subs n ind l := by
  simp only [subs, List.length_cons, sub, if_neg hc]
theorem subs_line (n : Nat) (ind a l : Str) (h : '\n' ∉ a) : subs n ind (a ++ l) = a ++ subs n ind l := by
  induction a with
  | nil => rfl
  | cons c a ih =>
    simp only [List.mem_cons, not_or] at h
    rw [List.cons_append, subs_cons _ _ _ _ (Ne.symm h.1), ih h.2]; rfl

theorem dropSpaces_sub (n : Nat) (a : Str) : ∀ c ∈ dropSpaces n a, c ∈ a := by
  induction n generalizing a with
  | zero => intro c hc; exact hc
  | succ n ih =>
    intro c hc
    unfold dropSpaces at hc
    split at hc
    · cases ‹_ + 1 = 0›
    · rename_i heq
      cases heq
      exact List.mem_cons_of_mem _ (ih _ c hc)
    · exact hc

theorem dropSpaces_append (n : Nat) (a : Str) (c : Char) (l : Str) (hc : c ≠ ' ') :
    dropSpaces n (a ++ c :: l) = dropSpaces n a ++ c :: l := by
  induction n generalizing a with
  | zero => rfl
  | succ n ih =>
    cases a with
    | nil =>
      have h1 : dropSpaces (n + 1) (c :: l) = c :: l := by
        unfold dropSpaces; split
        · rfl
        · rename_i heq; cases heq; exact absurd rfl hc
        · rfl
      rw [List.nil_append, h1]; rfl
    | cons d a =>
      by_cases hd : d = ' '
      · subst hd; simp only [List.cons_append, dropSpaces, ih]
      · have h1 : ∀ x : Str, dropSpaces (n + 1) (d :: x) = d :: x := by
          intro x
          unfold dropSpaces; split
          · rfl
          · rename_i heq; cases heq; exact absurd rfl hd
          · rfl
        rw [List.cons_append, h1, h1, List.cons_append]

theorem skipCR_line (a l : Str) (h : a.head? ≠ some '\r') (ha : a ≠ [] ∨ l.head? ≠ some '\r') : skipCR (a ++ l) = a ++ l := by
  unfold skipCR
  split
  · rename_i heq
    cases a with
    | nil =>
      rw [List.nil_append] at heq
      rw [heq] at ha
      simp at ha
    | cons c a =>
      simp only [List.cons_append, List.cons.injEq] at heq
      rw [heq.1] at h; simp at h
  · rfl

theorem subs_lines (n : Nat) (ind : Str) (ls : List Str) (hne : ls ≠ []) (h : ∀ l ∈ ls, Line l) :
    subs n ind ('\n' :: joinLines ls) = '\n' :: joinLines (ls.map fun l => ind ++ dropSpaces n l) := by
  induction ls with
  | nil => exact absurd rfl hne
  | cons a ls ih =>
    obtain ⟨h1, h2⟩ := h a (by simp)
    have h3 : '\n' ∉ dropSpaces n a := fun hm => h1 (dropSpaces_sub n a _ hm)
    rw [subs_newline]
    cases ls with
    | nil =>
      simp only [joinLines, List.map_cons, List.map_nil]
      have := skipCR_line a [] h2 (Or.inr (by simp))
      rw [List.append_nil] at this
      rw [this]
      have := subs_line n ind (dropSpaces n a) [] h3
      rw [List.append_nil] at this
      rw [this, subs_nil, List.append_nil]
      rfl
    | cons b ls =>
      have := ih (by simp) fun l hl => h l (by simp [hl])
      simp only [joinLines, List.map_cons] at this ⊢
      rw [skipCR_line a _ h2 (Or.inr (by simp)), dropSpaces_append _ _ _ _ (by decide), subs_line _ _ _ _ h3, this]
      simp

/-- A line as its indentation and its text. -/
def lineOf (p : Nat × Str) : Str := List.replicate p.1 ' ' ++ p.2

theorem dropSpaces_lineOf (k : Nat) (p : Nat × Str) (h : p.2.head? ≠ some ' ') : dropSpaces k (lineOf p) = lineOf (p.1 - k, p.2) := by
  obtain ⟨j, t⟩ := p
  unfold lineOf
  simp only at h ⊢
  induction k generalizing j with
  | zero => rfl
  | succ k ih =>
    cases j with
    | zero =>
      simp only [List.replicate_zero, List.nil_append, Nat.zero_sub]
      unfold dropSpaces; split
      · rfl
      · simp at h
      · rfl
    | succ j =>
      simp only [List.replicate_succ, List.cons_append, dropSpaces]
      rw [ih j, Nat.succ_sub_succ]

theorem lstrip_replicate (k : Nat) (c : Char) (l : Str) (hc : isSpace c = false) : lstrip (List.replicate k ' ' ++ c :: l) = c :: l := by
  induction k with
  | zero => simp [lstrip, List.dropWhile, hc]
  | succ k ih =>
    have : isSpace ' ' = true := by decide
    simp only [lstrip] at ih ⊢
    simp only [List.replicate_succ, List.cons_append, List.dropWhile, this, ih]

theorem lstrip_space (a l : Str) (ha : ∀ c ∈ a, isSpace c = true) : lstrip (a ++ l) = lstrip l := by
  induction a with
  | nil => rfl
  | cons c a ih =>
    have := ih fun d hd => ha d (by simp [hd])
    simp only [lstrip] at this ⊢
    simp only [List.cons_append, List.dropWhile, ha c (by simp), this]

theorem lstrip_text (c : Char) (l : Str) (hc : isSpace c = false) : lstrip (c :: l) = c :: l := by
  simp [lstrip, List.dropWhile, hc]

/-- The lines of a reindented text: the first with no indentation, the others with `ind` and what they had beyond the first. -/
def reindented (k : Nat) (ind : Str) (first : Str) (rest : List (Nat × Str)) : Str :=
  joinLines (first :: rest.map fun p => ind ++ lineOf (p.1 - k, p.2))

theorem joinLines_cons (a b : Str) (l : List Str) : joinLines ((a ++ b) :: l) = a ++ joinLines (b :: l) := by
  cases l <;> simp [joinLines]

theorem joinLines_char (c : Char) (b : Str) (l : List Str) : joinLines ((c :: b) :: l) = c :: joinLines (b :: l) := by
  cases l <;> simp [joinLines]

/-- Trailing white space removed. -/
def rstrip (s : Str) : Str := (s.reverse.dropWhile isSpace).reverse

/-- C97: a docstring that begins on the line after the quotes with `k > 0` spaces (`nl = true`), or on the first line with `k > 0` spaces: the
first line loses its indentation, in the other lines an indentation of `j` becomes `ind` and `j - k` spaces; the white space at the end is
removed. -/
theorem change_indentation (nl : Bool) (k : Nat) (hk : 0 < k) (c : Char) (first : Str) (hc : isSpace c = false) (hf : '\n' ∉ first)
    (rest : List (Nat × Str)) (hr : ∀ p ∈ rest, Line (lineOf p) ∧ p.2.head? ≠ some ' ') (ind : Str) (hi : ∀ x ∈ ind, isSpace x = true) :
    changeIndentation ((if nl then ['\n'] else []) ++ joinLines (lineOf (k, c :: first) :: rest.map lineOf)) ind =
      rstrip (reindented k ind (c :: first) rest) := by
  have hcn : c ≠ '\n' := by rintro rfl; revert hc; decide
  have hcs : c ≠ ' ' := by rintro rfl; revert hc; decide
  obtain ⟨k', rfl⟩ : ∃ g, k = g + 1 := ⟨k - 1, by omega⟩
  have hline : Line (lineOf (k' + 1, c :: first)) := by
    refine ⟨?_, by simp [lineOf, List.replicate_succ]⟩
    simp [lineOf, List.replicate_succ, hf, hcn.symm]
  have hsp : ∀ x, spaces (joinLines (lineOf (k' + 1, c :: first) :: x)) = some (k' + 1) := by
    intro x
    rw [lineOf, joinLines_cons, joinLines_char]
    exact spaces_replicate _ _ _ hc
  have hhead : ∀ x, ∃ y, joinLines (lineOf (k' + 1, c :: first) :: x) = ' ' :: y := by
    intro x
    rw [lineOf, joinLines_cons, List.replicate_succ]
    exact ⟨_, rfl⟩
  have hfd : findDedent ((if nl then ['\n'] else []) ++ joinLines (lineOf (k' + 1, c :: first) :: rest.map lineOf)) = some (k' + 1) := by
    have h1 := hsp (rest.map lineOf)
    obtain ⟨y, hy⟩ := hhead (rest.map lineOf)
    rw [hy] at h1 ⊢
    cases nl
    · exact h1
    · exact h1
  have hrl : (rest.map lineOf).map (fun l => ind ++ dropSpaces (k' + 1) l) = rest.map fun p => ind ++ lineOf (p.1 - (k' + 1), p.2) := by
    rw [List.map_map]
    apply List.map_congr_left
    intro p hp
    simp only [Function.comp]
    rw [dropSpaces_lineOf _ _ (hr p hp).2]
  have hlines : ∀ l ∈ rest.map lineOf, Line l := by
    intro l hl
    obtain ⟨p, hp, rfl⟩ := List.mem_map.1 hl
    exact (hr p hp).1
  have htext : ∀ a, (∀ x ∈ a, isSpace x = true) → strip (a ++ reindented (k' + 1) ind (c :: first) rest) = rstrip (reindented (k' + 1) ind (c :: first) rest) := by
    intro a ha
    unfold strip
    rw [lstrip_space a _ ha]
    unfold reindented
    rw [joinLines_char, lstrip_text c _ hc]
    rfl
  unfold changeIndentation
  rw [hfd]
  simp only [Nat.succ_ne_zero, if_false]
  change strip (subs (k' + 1) ind _) = _
  cases nl with
  | true =>
    simp only [if_true, List.cons_append, List.nil_append]
    rw [subs_lines _ _ _ (by simp) (by
      intro l hl
      rcases List.mem_cons.1 hl with rfl | hl
      · exact hline
      · exact hlines l hl)]
    rw [List.map_cons, hrl, dropSpaces_lineOf _ _ (by simp [hcs]), Nat.sub_self]
    have : '\n' :: joinLines ((ind ++ lineOf (0, c :: first)) :: rest.map fun p => ind ++ lineOf (p.1 - (k' + 1), p.2)) =
        ('\n' :: ind) ++ reindented (k' + 1) ind (c :: first) rest := by
      rw [joinLines_cons]; rfl
    rw [this]
    apply htext
    intro x hx
    rcases List.mem_cons.1 hx with rfl | hx
    · decide
    · exact hi x hx
  | false =>
    simp only [Bool.false_eq_true, if_false, List.nil_append]
    have : subs (k' + 1) ind (joinLines (lineOf (k' + 1, c :: first) :: rest.map lineOf)) =
        List.replicate (k' + 1) ' ' ++ reindented (k' + 1) ind (c :: first) rest := by
      cases rest with
      | nil =>
        simp only [List.map_nil, joinLines, reindented]
        have := subs_line (k' + 1) ind (lineOf (k' + 1, c :: first)) [] hline.1
        rw [List.append_nil] at this
        rw [this, subs_nil, List.append_nil]; rfl
      | cons b rest =>
        have h := subs_lines (k' + 1) ind ((b :: rest).map lineOf) (by simp) hlines
        rw [hrl] at h
        simp only [List.map_cons, joinLines, reindented] at h ⊢
        rw [subs_line _ _ _ _ hline.1, h]
        simp [lineOf]
    rw [this]
    apply htext
    intro x hx
    rw [List.eq_of_mem_replicate hx]; decide

/-- C97: a text whose first line is not indented is returned as it is, whatever indentation is asked for. -/
theorem unindented_unchanged (c : Char) (l ind : Str) (hc : isSpace c = false) : changeIndentation (c :: l) ind = c :: l ∧
    changeIndentation ('\n' :: c :: l) ind = '\n' :: c :: l := by
  have h1 : c ≠ '\n' := by rintro rfl; revert hc; decide
  have h2 : c ≠ ' ' := by rintro rfl; revert hc; decide
  have h3 : c ≠ '\r' := by rintro rfl; revert hc; decide
  constructor
  · have : findDedent (c :: l) = some 0 := by
      unfold findDedent; split
      · rename_i heq; cases heq; exact absurd rfl h1
      · rename_i heq; cases heq; exact absurd rfl h1
      · simp [spaces, h2, hc]
    simp [changeIndentation, this]
  · have : findDedent ('\n' :: c :: l) = some 0 := by
      unfold findDedent; split
      · rename_i heq; cases heq; exact absurd rfl h3
      · rename_i heq; cases heq; simp [spaces, h2, hc]
      · rename_i h1 h; exact absurd rfl (h _)
    simp [changeIndentation, this]

theorem spaces_mem : ∀ (l : Str) (n : Nat), spaces l = some n → ∃ c ∈ l, isSpace c = false := by
  intro l
  induction l with
  | nil => intro n h; cases h
  | cons c l ih =>
    intro n h
    unfold spaces at h
    split_ifs at h with h1 h2
    · rw [Option.map_eq_some_iff] at h
      obtain ⟨m, hm, _⟩ := h
      obtain ⟨d, hd, hs⟩ := ih m hm
      exact ⟨d, by simp [hd], hs⟩
    · exact ⟨c, by simp, by simpa using h2⟩

theorem findDedent_mem (l : Str) (n : Nat) (h : findDedent l = some n) : ∃ c ∈ l, isSpace c = false := by
  unfold findDedent at h
  split at h
  all_goals
    obtain ⟨c, hc, hs⟩ := spaces_mem _ _ h
    exact ⟨c, by simp [hc], hs⟩

theorem dropSpaces_keep (n : Nat) (l : Str) : ∀ c ∈ l, isSpace c = false → c ∈ dropSpaces n l := by
  induction n generalizing l with
  | zero => intro c hc _; exact hc
  | succ n ih =>
    intro c hc hs
    unfold dropSpaces
    split
    · exact hc
    · rename_i heq
      cases heq
      rcases List.mem_cons.1 hc with rfl | hc
      · exact absurd hs (by decide)
      · exact ih _ c hc hs
    · exact hc

theorem subs_keep (n : Nat) (ind : Str) : ∀ (m : Nat) (l : Str), l.length ≤ m → ∀ c ∈ l, isSpace c = false → c ∈ subs n ind l := by
  intro m
  induction m with
  | zero =>
    intro l hl c hc
    have : l = [] := List.length_eq_zero_iff.1 (by omega)
    subst this; cases hc
  | succ m ih =>
    intro l hl c hc hs
    cases l with
    | nil => cases hc
    | cons d l =>
      simp only [List.length_cons] at hl
      by_cases hd : d = '\n'
      · subst hd
        rw [subs_newline]
        have hcl : c ∈ l := by
          rcases List.mem_cons.1 hc with rfl | h
          · exact absurd hs (by decide)
          · exact h
        have : c ∈ skipCR l := by
          unfold skipCR; split
          · rcases List.mem_cons.1 hcl with rfl | h
            · exact absurd hs (by decide)
            · exact h
          · exact hcl
        have h1 := dropSpaces_length n (skipCR l)
        have h2 := skipCR_length l
        have := ih _ (by omega) c (dropSpaces_keep n _ c this hs) hs
        simp [this]
      · rw [subs_cons _ _ _ _ hd]
        rcases List.mem_cons.1 hc with rfl | h
        · simp
        · simp [ih l (by omega) c h hs]

theorem lstrip_head (l : Str) (h : ∃ c ∈ l, isSpace c = false) : ∃ c r, lstrip l = c :: r ∧ isSpace c = false := by
  induction l with
  | nil => obtain ⟨c, hc, _⟩ := h; cases hc
  | cons d l ih =>
    by_cases hd : isSpace d = true
    · have : lstrip (d :: l) = lstrip l := by simp [lstrip, List.dropWhile, hd]
      rw [this]
      apply ih
      obtain ⟨c, hc, hs⟩ := h
      rcases List.mem_cons.1 hc with rfl | hc
      · rw [hd] at hs; cases hs
      · exact ⟨c, hc, hs⟩
    · exact ⟨d, l, lstrip_text d l (by simpa using hd), by simpa using hd⟩

theorem dropWhile_last (l : Str) (c : Char) (hc : isSpace c = false) : ∃ r, (l ++ [c]).dropWhile isSpace = r ++ [c] := by
  induction l with
  | nil => exact ⟨[], by simp [List.dropWhile, hc]⟩
  | cons d l ih =>
    by_cases hd : isSpace d = true
    · simp only [List.cons_append, List.dropWhile, hd]; exact ih
    · have hd : isSpace d = false := by simpa using hd
      exact ⟨d :: l, by simp [List.dropWhile, hd]⟩

theorem strip_head (l : Str) (h : ∃ c ∈ l, isSpace c = false) : ∃ c r, strip l = c :: r ∧ isSpace c = false := by
  obtain ⟨c, r, hl, hc⟩ := lstrip_head l h
  unfold strip
  rw [hl, List.reverse_cons]
  obtain ⟨q, hq⟩ := dropWhile_last r.reverse c hc
  rw [hq]
  exact ⟨c, q.reverse, by simp, hc⟩

/-- C97: changing the indentation of a text twice is the same as the first change alone. -/
theorem change_once (s i j : Str) : changeIndentation (changeIndentation s i) j = changeIndentation s i := by
  unfold changeIndentation
  cases h : findDedent s with
  | none => simp only [h]
  | some n =>
    by_cases hn : n = 0
    · subst hn; simp only [if_true, h]
    · simp only [if_neg hn]
      obtain ⟨c, hc, hs⟩ := findDedent_mem s n h
      obtain ⟨d, r, hr, hd⟩ := strip_head (sub n i s.length s) ⟨c, subs_keep n i s.length s (Nat.le_refl _) c hc hs, hs⟩
      rw [hr]
      exact (unindented_unchanged d r j hd).1

/-- C97: white space at the ends of the result. -/
theorem example_doc : changeIndentation "\n    Docstring 2\n    and more!\n    ".toList "  ".toList = "Docstring 2\n  and more!".toList := by decide +kernel

/-! ## `add_docs` -/

/-- C97: a docstring without the placeholder is followed by the other documentation on new lines. -/
theorem append_doc (name d doc : Str) (h : contains (placeholder name) doc = false) :
    addDocs [(name, d)] (some doc) = some (doc ++ '\n' :: (List.replicate ((findDedent doc).getD 0) ' ' ++
      changeIndentation d (List.replicate ((findDedent doc).getD 0) ' '))) := by
  simp [addDocs, addDoc, h]

theorem contains_append_left (old a b : Str) (h : contains old (a ++ b) = false) : contains old a = false := by
  induction a with
  | nil =>
    cases ho : old with
    | nil => subst ho; cases b <;> simp [contains] at h
    | cons x y => rfl
  | cons c a ih =>
    simp only [List.cons_append, contains, Bool.or_eq_false_iff] at h ⊢
    refine ⟨?_, ih h.2⟩
    by_contra hc
    have hp : old <+: c :: a := List.isPrefixOf_iff_prefix.1 (by simpa using hc)
    have : old.isPrefixOf (c :: (a ++ b)) = true :=
      List.isPrefixOf_iff_prefix.2 (List.IsPrefix.trans hp ⟨b, by simp⟩)
    rw [h.1] at this; cases this

theorem replaceAll_none (old new : Str) (h0 : old ≠ []) : ∀ (f : Nat) (l : Str), l.length ≤ f → contains old l = false → replaceAll old new f l = l := by
  intro f
  induction f with
  | zero => intro l _ _; rfl
  | succ f ih =>
    intro l hl h
    cases l with
    | nil => rfl
    | cons c l =>
      simp only [contains, Bool.or_eq_false_iff] at h
      simp only [List.length_cons] at hl
      simp only [replaceAll, h.1, Bool.false_eq_true, false_and, if_false, ih l (by omega) h.2]

/-- The part before the first occurrence: no occurrence of `old` begins in `a`, followed by `b`. -/
def FirstAt (old a b : Str) : Prop := ∀ x y, a = x ++ y → y ≠ [] → old.isPrefixOf (y ++ b) = false

theorem replaceAll_first (old new : Str) (h0 : old ≠ []) : ∀ (a : Str) (b : Str) (f : Nat), FirstAt old a (old ++ b) → (a ++ (old ++ b)).length ≤ f →
    contains old b = false → replaceAll old new f (a ++ (old ++ b)) = a ++ (new ++ b) := by
  intro a
  induction a with
  | nil =>
    intro b f _ hf hb
    obtain ⟨c, o, rfl⟩ := List.exists_cons_of_ne_nil h0
    simp only [List.nil_append, List.cons_append, List.length_cons, List.length_append] at hf
    obtain ⟨f, rfl⟩ : ∃ g, f = g + 1 := ⟨f - 1, by omega⟩
    have hp : (c :: o).isPrefixOf (c :: (o ++ b)) = true := List.isPrefixOf_iff_prefix.2 ⟨b, by simp⟩
    simp only [List.nil_append, List.cons_append, replaceAll]
    rw [if_pos ⟨hp, by simp⟩]
    have : List.drop (c :: o).length (c :: (o ++ b)) = b := by simp
    rw [this, replaceAll_none _ _ (by simp) f b (by omega) hb]
  | cons x a ih =>
    intro b f hfirst hf hb
    simp only [List.cons_append, List.length_cons] at hf
    obtain ⟨f, rfl⟩ : ∃ g, f = g + 1 := ⟨f - 1, by omega⟩
    have h1 : old.isPrefixOf (x :: (a ++ (old ++ b))) = false := hfirst [] (x :: a) rfl (by simp)
    simp only [List.cons_append, replaceAll, h1, Bool.false_eq_true, false_and, if_false]
    rw [ih b f (fun p q hpq hq => hfirst (x :: p) q (by rw [hpq]; rfl) hq) (by omega) hb]

theorem contains_mid (old a b : Str) : contains old (a ++ (old ++ b)) = true := by
  induction a with
  | nil =>
    cases old with
    | nil => cases b <;> simp [contains]
    | cons c o =>
      have hp : (c :: o).isPrefixOf (c :: (o ++ b)) = true := List.isPrefixOf_iff_prefix.2 ⟨b, by simp⟩
      simp only [List.nil_append, List.cons_append, contains, hp, Bool.true_or]
  | cons x a ih => simp only [List.cons_append, contains, ih, Bool.or_true]

theorem placeholder_eq (name : Str) : placeholder name = '{' :: ("docstr:".toList ++ name ++ ['}']) := rfl
theorem placeholder_ne (name : Str) : placeholder name ≠ [] := by rw [placeholder_eq]; exact List.cons_ne_nil _ _

/-- C97: the placeholder `{docstr:Name}`, if it occurs once, is replaced by the other documentation, and the text around it is kept. -/
theorem replace_doc (name d a b : Str) (ha : FirstAt (placeholder name) a (placeholder name ++ b)) (hb : contains (placeholder name) b = false) :
    addDocs [(name, d)] (some (a ++ (placeholder name ++ b))) =
      some (a ++ (changeIndentation d (List.replicate ((findDedent (a ++ (placeholder name ++ b))).getD 0) ' ') ++ b)) := by
  simp only [addDocs, List.foldl_cons, List.foldl_nil, addDoc, contains_mid, if_true]
  rw [replaceAll_first _ _ (placeholder_ne name) a b _ ha (Nat.le_refl _) hb]

/-- C97: a name without braces and text without opening braces before the placeholder satisfy the condition above. -/
theorem firstAt_of_noBrace (name a b : Str) (h : '{' ∉ a) : FirstAt (placeholder name) a b := by
  intro x y hxy hy
  obtain ⟨c, y, rfl⟩ := List.exists_cons_of_ne_nil hy
  have hc : c ≠ '{' := by rintro rfl; exact h (by rw [hxy]; simp)
  by_contra hp
  have hp' : placeholder name <+: c :: y ++ b := List.isPrefixOf_iff_prefix.1 (by simpa using hp)
  obtain ⟨t, ht⟩ := hp'
  have h1 : placeholder name = '{' :: ("docstr:".toList ++ name ++ ['}']) := rfl
  rw [h1, List.cons_append, List.cons_append] at ht
  injection ht with h1 h2
  exact hc h1.symm

/-- C97 fails for a function without a docstring: TypeError instead of just the added documentation. -/
theorem no_docstring (docs : List (Str × Str)) : addDocs docs none = none := rfl

/-- The examples of the documentation, gen.py 500-522. -/
theorem doc_examples : addDocs [("f1".toList, "Docstring 1".toList)] (some "\n    Docstring 3\n    ".toList) =
      some "\n    Docstring 3\n    \n    Docstring 1".toList ∧
    addDocs [("f2".toList, "\n    Docstring 2\n    and more!\n    ".toList)] (some "\n    Docstring 3\n    ".toList) =
      some "\n    Docstring 3\n    \n    Docstring 2\n    and more!".toList ∧
    addDocs [("f1".toList, "Docstring 1".toList)] (some "\n    Docstrong 2 {docstr:f1}\n    ".toList) =
      some "\n    Docstrong 2 Docstring 1\n    ".toList := by decide +kernel

example : changeIndentation (joinLines ("  one".toList :: ["    two".toList, " three".toList])) "\t".toList = "one\n\t  two\n\tthree".toList := by
  have h := change_indentation false 2 (by decide) 'o' "ne".toList (by decide) (by decide) [(4, "two".toList), (1, "three".toList)]
      (by unfold Line; decide +kernel) "\t".toList (by decide)
  have h2 : rstrip (reindented 2 "\t".toList ('o' :: "ne".toList) [(4, "two".toList), (1, "three".toList)]) = "one\n\t  two\n\tthree".toList := by
    decide +kernel
  rw [h2] at h
  exact h

end Verif.Indent
