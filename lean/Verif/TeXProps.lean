import Verif.TeX
import Mathlib.Data.List.Infix

/-!
# Printing a parsed TeX text gives the text back (C38)

`Plain` lists, as forbidden substrings, the shapes for which the parser of publication.py is not
faithful (each is shown to be needed by a counterexample below).  For every other text parsing
succeeds and printing the nodes returns the text.
-/

namespace Verif.TeX

/-! ## Specification -/

/-- Characters after which a parenthesised argument of a command may begin. -/
def ArgBefore (p : Char) : Prop := isWord p = true ∨ p = '*' ∨ p = '}' ∨ p = ']'

def Opener (o : Char) : Prop := o = '{' ∨ o = '['

def Spaces (ws : Str) : Prop := ∀ c ∈ ws, isSpace c = true

/-- Mathematics properly delimited: `$u$` with `u` not empty, or `$$u$$`, and other text. -/
inductive Maths : Str → Prop
  | nil : Maths []
  | char (c : Char) (l : Str) : c ≠ '$' → Maths l → Maths (c :: l)
  | inline (u l : Str) : '$' ∉ u → u ≠ [] → l.head? ≠ some '$' → Maths l → Maths ('$' :: u ++ '$' :: l)
  | display (u l : Str) : '$' ∉ u → Maths l → Maths ('$' :: '$' :: u ++ '$' :: '$' :: l)

/-- The dollars of a text are unproblematic: no two in a row (not necessarily paired), or mathematics properly delimited, also inside every
environment. -/
def DollarsOk (t : Str) : Prop :=
  ¬ ['$', '$'] <:+: t ∨
  (Maths t ∧ ∀ N C, '}' ∉ N → ("\\begin{".toList ++ N ++ ['}'] ++ C ++ endTag N) <:+: t →
    ¬ endTag N <:+: C ++ (endTag N).dropLast → '$' ∉ N ∧ Maths C)

/-- Texts without the troublesome shapes other than dollars. -/
structure Basic (t : Str) : Prop where
  /-- no `]` before an opening character inside `{...}` arguments -/
  noMixedCurly : ∀ p u ws o, ArgBefore p → '}' ∉ u → Spaces ws → Opener o →
    ¬ (p :: '{' :: u ++ ']' :: ws ++ [o]) <:+: t
  /-- no `}` before an opening character inside `[...]` arguments -/
  noMixedSquare : ∀ p u ws o, ArgBefore p → ']' ∉ u → Spaces ws → Opener o →
    ¬ (p :: '[' :: u ++ '}' :: ws ++ [o]) <:+: t
  /-- no `\end` inside the name of an environment -/
  noEndName : ∀ u, '}' ∉ u → ¬ ("\\begin{".toList ++ u ++ "\\end".toList) <:+: t
  /-- no `\left\cmd` or `\right\cmd` -/
  noLeftCmd : ∀ w, isWord w = true → ¬ ("\\left\\".toList ++ [w]) <:+: t
  noRightCmd : ∀ w, isWord w = true → ¬ ("\\right\\".toList ++ [w]) <:+: t
  /-- no `\right{` or `\right[` -/
  noRightArg : ∀ o, Opener o → ¬ ("\\right".toList ++ [o]) <:+: t

/-- No `{\cmd`, i.e. no declaration in braces. -/
def NoDecl (t : Str) : Prop := ∀ ws, Spaces ws → ¬ ('{' :: ws ++ ['\\']) <:+: t

/-- Texts without the troublesome shapes (and without any declaration in braces; `TeXDecl` allows
those that work). -/
def Plain (t : Str) : Prop := Basic t ∧ DollarsOk t ∧ NoDecl t

theorem NoDecl.infix {t s : Str} (h : NoDecl t) (hs : s <:+: t) : NoDecl s :=
  fun ws hw hi => h ws hw (hi.trans hs)

theorem Basic.infix {t s : Str} (h : Basic t) (hs : s <:+: t) : Basic s where
  noMixedCurly p u ws o h1 h2 h3 h4 hi := h.noMixedCurly p u ws o h1 h2 h3 h4 (hi.trans hs)
  noMixedSquare p u ws o h1 h2 h3 h4 hi := h.noMixedSquare p u ws o h1 h2 h3 h4 (hi.trans hs)
  noEndName u h1 hi := h.noEndName u h1 (hi.trans hs)
  noLeftCmd w h1 hi := h.noLeftCmd w h1 (hi.trans hs)
  noRightCmd w h1 hi := h.noRightCmd w h1 (hi.trans hs)
  noRightArg o h1 hi := h.noRightArg o h1 (hi.trans hs)

/-! ## Lemmas: pieces of the regular expressions -/

theorem print_env (N : Str) (ns : List Node) : print (.env N ns) =
    "\\begin{".toList ++ N ++ ['}'] ++ printL ns ++ endTag N := rfl

theorem print_math (d : Bool) (ns : List Node) : print (.math d ns) =
    (if d then ['$', '$'] else ['$']) ++ printL ns ++ (if d then ['$', '$'] else ['$']) := rfl

theorem print_cmd (n : Str) (a : List Arg) :
    print (.cmd n a) = '\\' :: n ++ (a.map printArg).flatten := rfl

theorem print_trailing (n : Str) (c : Char) : print (.trailing n c) = '\\' :: n ++ [c] := rfl

theorem printL_nil : printL [] = [] := rfl

theorem printL_cons (n : Node) (ns : List Node) : printL (n :: ns) = print n ++ printL ns := rfl

theorem printL_append (a b : List Node) : printL (a ++ b) = printL a ++ printL b := by
  induction a with
  | nil => simp [printL_nil]
  | cons n a ih => simp [printL_cons, ih, List.append_assoc]

theorem upTo_spec {c : Char} {l u r : Str} (h : upTo c l = some (u, r)) :
    l = u ++ c :: r ∧ c ∉ u := by
  induction l generalizing u r with
  | nil => simp [upTo] at h
  | cons x l ih =>
    unfold upTo at h
    split_ifs at h with h1 h2
    · simp only [Option.some.injEq, Prod.mk.injEq] at h
      obtain ⟨rfl, rfl⟩ := h
      exact ⟨by simp [h1], by simp⟩
    · rw [Option.map_eq_some_iff] at h
      obtain ⟨⟨a, b⟩, hab, he⟩ := h
      simp only [Prod.mk.injEq] at he
      obtain ⟨rfl, rfl⟩ := he
      obtain ⟨e1, e2⟩ := ih hab
      refine ⟨by rw [e1]; rfl, ?_⟩
      simp only [List.mem_cons, not_or]
      exact ⟨fun h => h1 h.symm, e2⟩

/-- A group is `{u}` or `[u]`. -/
theorem group_spec {l g r : Str} (h : group l = some (g, r)) :
    l = g ++ r ∧ ((∃ u, g = '{' :: u ++ ['}'] ∧ '}' ∉ u) ∨ (∃ u, g = '[' :: u ++ [']'] ∧ ']' ∉ u)) := by
  cases l with
  | nil => simp [group] at h
  | cons x l =>
    simp only [group] at h
    split_ifs at h with h1 h2
    · rw [Option.map_eq_some_iff] at h
      obtain ⟨⟨a, b⟩, hab, he⟩ := h
      simp only [Prod.mk.injEq] at he
      obtain ⟨rfl, rfl⟩ := he
      obtain ⟨e1, e2⟩ := upTo_spec hab
      exact ⟨by rw [e1, h1]; simp, Or.inl ⟨a, rfl, e2⟩⟩
    · rw [Option.map_eq_some_iff] at h
      obtain ⟨⟨a, b⟩, hab, he⟩ := h
      simp only [Prod.mk.injEq] at he
      obtain ⟨rfl, rfl⟩ := he
      obtain ⟨e1, e2⟩ := upTo_spec hab
      exact ⟨by rw [e1, h2]; simp, Or.inr ⟨a, rfl, e2⟩⟩

/-- A sequence of argument groups, each with its opening and closing character. -/
inductive Groups : Str → Prop where
  | nil : Groups []
  | curly (u B : Str) : '}' ∉ u → Groups B → Groups ('{' :: u ++ '}' :: B)
  | square (u B : Str) : ']' ∉ u → Groups B → Groups ('[' :: u ++ ']' :: B)

theorem groups_spec (f : Nat) (l : Str) : l = (groups f l).1 ++ (groups f l).2 ∧ Groups (groups f l).1 := by
  induction f generalizing l with
  | zero => exact ⟨by simp [groups], by simp only [groups]; exact .nil⟩
  | succ f ih =>
    unfold groups
    cases h : group l with
    | none => exact ⟨by simp, .nil⟩
    | some p =>
      obtain ⟨g, r⟩ := p
      simp only
      obtain ⟨e, hg⟩ := group_spec h
      obtain ⟨e2, h2⟩ := ih r
      refine ⟨by rw [List.append_assoc, ← e2]; exact e, ?_⟩
      rcases hg with ⟨u, rfl, hu⟩ | ⟨u, rfl, hu⟩
      · have : '{' :: u ++ ['}'] ++ (groups f r).1 = '{' :: u ++ '}' :: (groups f r).1 := by simp
        rw [this]; exact .curly u _ hu h2
      · have : '[' :: u ++ [']'] ++ (groups f r).1 = '[' :: u ++ ']' :: (groups f r).1 := by simp
        rw [this]; exact .square u _ hu h2

theorem groups_ne_nil {f : Nat} {l : Str} (hf : 0 < f) (h : (group l).isSome) :
    (groups f l).1 ≠ [] := by
  obtain ⟨f, rfl⟩ : ∃ k, f = k + 1 := ⟨f - 1, by omega⟩
  unfold groups
  cases hg : group l with
  | none => rw [hg] at h; cases h
  | some p =>
    obtain ⟨g, r⟩ := p
    obtain ⟨_, hg⟩ := group_spec hg
    rcases hg with ⟨u, rfl, _⟩ | ⟨u, rfl, _⟩ <;> simp

/-- The second part of a command. -/
theorem argsAt_spec {l a r : Str} (h : argsAt l = some (a, r)) :
    l = a ++ r ∧ Groups a ∧ (a = [] → ∃ c r', r = c :: r' ∧ isWord c = false) := by
  unfold argsAt at h
  cases hg : group l with
  | some p =>
    rw [hg] at h
    simp only [Option.some.injEq] at h
    have hl : 0 < l.length := by
      cases l with
      | nil => simp [group] at hg
      | cons x l => simp
    have hs := groups_spec l.length l
    have hne := groups_ne_nil (l := l) hl (by rw [hg]; rfl)
    rw [h] at hs hne
    exact ⟨hs.1, hs.2, fun ha => absurd ha hne⟩
  | none =>
    rw [hg] at h
    cases l with
    | nil => simp at h
    | cons c l =>
      simp only at h
      split_ifs at h with hw
      simp only [Option.some.injEq, Prod.mk.injEq] at h
      obtain ⟨rfl, rfl⟩ := h
      exact ⟨rfl, .nil, fun _ => ⟨c, l, rfl, by simpa using hw⟩⟩

theorem argsAt_nonword {c : Char} {l : Str} (hc : isWord c = false) : argsAt (c :: l) ≠ none := by
  unfold argsAt
  cases group (c :: l) with
  | some p => simp
  | none => simp [hc]

/-- What a matched command looks like. -/
structure IsCmd (l n a r : Str) : Prop where
  eq : l = '\\' :: n ++ a ++ r
  args : Groups a
  next : a = [] → ∃ c r', r = c :: r' ∧ isWord c = false
  name : ∃ n' p, n = n' ++ [p] ∧ ArgBefore p

theorem nameEnd_spec {name l n a r : Str} (h : nameEnd name l = some (n, a, r)) :
    ((n = name ∧ l = a ++ r) ∨ (n = name ++ ['*'] ∧ l = '*' :: a ++ r)) ∧ Groups a ∧
      (a = [] → ∃ c r', r = c :: r' ∧ isWord c = false) := by
  have key : ∀ {l : Str}, (argsAt l).map (fun p => (name, p)) = some (n, a, r) →
      ((n = name ∧ l = a ++ r) ∨ (n = name ++ ['*'] ∧ l = '*' :: a ++ r)) ∧ Groups a ∧
      (a = [] → ∃ c r', r = c :: r' ∧ isWord c = false) := by
    intro l h
    rw [Option.map_eq_some_iff] at h
    obtain ⟨⟨a', r'⟩, h1, h2⟩ := h
    simp only [Prod.mk.injEq] at h2
    obtain ⟨rfl, rfl, rfl⟩ := h2
    obtain ⟨e1, e2, e3⟩ := argsAt_spec h1
    exact ⟨Or.inl ⟨rfl, e1⟩, e2, e3⟩
  unfold nameEnd at h
  split at h
  · rename_i l'
    split at h
    · rename_i p hp
      simp only [Option.some.injEq, Prod.mk.injEq] at h
      obtain ⟨rfl, h2⟩ := h
      subst h2
      obtain ⟨e1, e2, e3⟩ := argsAt_spec hp
      exact ⟨Or.inr ⟨rfl, by rw [e1]; rfl⟩, e2, e3⟩
    · exact key h
  · exact key h

theorem nameEnd_none {name : Str} {c : Char} {l : Str} (h : nameEnd name (c :: l) = none) :
    isWord c = true := by
  by_contra hc
  have hc' : isWord c = false := by simpa using hc
  have := argsAt_nonword (l := l) hc'
  unfold nameEnd at h
  split at h
  · split at h
    · cases h
    · rw [Option.map_eq_none_iff] at h
      exact this h
  · rw [Option.map_eq_none_iff] at h
    exact this h

theorem nameLoop_spec {l : Str} : ∀ {name n a r : Str}, (∃ n' p, name = n' ++ [p] ∧ isWord p = true) →
    nameLoop name l = some (n, a, r) →
    name ++ l = n ++ a ++ r ∧ Groups a ∧ (a = [] → ∃ c r', r = c :: r' ∧ isWord c = false) ∧
      ∃ n' p, n = n' ++ [p] ∧ ArgBefore p := by
  have fin : ∀ {l name n a r : Str}, (∃ n' p, name = n' ++ [p] ∧ isWord p = true) →
      nameEnd name l = some (n, a, r) →
      name ++ l = n ++ a ++ r ∧ Groups a ∧ (a = [] → ∃ c r', r = c :: r' ∧ isWord c = false) ∧
      ∃ n' p, n = n' ++ [p] ∧ ArgBefore p := by
    intro l name n a r hn h
    obtain ⟨h1, h2, h3⟩ := nameEnd_spec h
    obtain ⟨n', p, rfl, hp⟩ := hn
    rcases h1 with ⟨rfl, rfl⟩ | ⟨rfl, rfl⟩
    · exact ⟨by simp, h2, h3, n', p, rfl, Or.inl hp⟩
    · exact ⟨by simp, h2, h3, n' ++ [p], '*', rfl, Or.inr (Or.inl rfl)⟩
  induction l with
  | nil => intro name n a r hn h; exact fin hn h
  | cons c l ih =>
    intro name n a r hn h
    unfold nameLoop at h
    cases he : nameEnd name (c :: l) with
    | some q =>
      rw [he] at h
      simp only [Option.some.injEq] at h
      subst h
      exact fin hn he
    | none =>
      rw [he] at h
      simp only at h
      split_ifs at h
      have := ih ⟨name, c, rfl, nameEnd_none he⟩ h
      simpa using this

theorem command_spec {l n a r : Str} (h : command l = some (n, a, r)) :
    IsCmd l n a r ∧ ∃ w l', l = '\\' :: w :: l' ∧ isWord w = true := by
  unfold command at h
  split at h
  · rename_i c l'
    split_ifs at h with hw
    obtain ⟨h1, h2, h3, h4⟩ := nameLoop_spec ⟨[], c, rfl, hw⟩ h
    refine ⟨⟨?_, h2, h3, h4⟩, c, l', rfl, hw⟩
    have : c :: l' = n ++ a ++ r := h1
    rw [this]; simp
  · cases h

/-! ### Arguments -/

theorem mem_takeWhile_true {p : Char → Bool} {l : Str} {c : Char} (h : c ∈ l.takeWhile p) :
    p c = true := by
  induction l with
  | nil => simp at h
  | cons x l ih =>
    rw [List.takeWhile_cons] at h
    split_ifs at h with hx
    · rcases List.mem_cons.mp h with rfl | h
      · exact hx
      · exact ih h
    · simp at h

theorem dropWhile_spaces {l : Str} {o : Char} {r : Str} (h : l.dropWhile isSpace = o :: r) :
    ∃ ws, l = ws ++ o :: r ∧ Spaces ws := by
  refine ⟨l.takeWhile isSpace, ?_, ?_⟩
  · rw [← h]; exact (List.takeWhile_append_dropWhile).symm
  · intro c hc; exact mem_takeWhile_true hc

/-- Inside an argument nothing splits, at its end it does. -/
theorem argSplit_inner (cl ot : Char) (hcl : (cl = '}' ∧ ot = ']') ∨ (cl = ']' ∧ ot = '}'))
    (B : Str) (hB : B = [] ∨ ∃ o r, B = o :: r ∧ Opener o) (u : Str) (hu : cl ∉ u)
    (hno : ∀ u1 ws o u2, Spaces ws → Opener o → u ≠ u1 ++ ot :: ws ++ o :: u2) :
    argSplit (u ++ cl :: B) = u :: argSplit B := by
  induction u with
  | nil =>
    simp only [List.nil_append]
    rw [argSplit]
    have : ((cl == '}' || cl == ']') && sepAfter B) = true := by
      have h1 : (cl == '}' || cl == ']') = true := by rcases hcl with ⟨rfl, _⟩ | ⟨rfl, _⟩ <;> rfl
      rw [h1, Bool.true_and]
      rcases hB with rfl | ⟨o, r, rfl, ho⟩
      · rfl
      · rcases ho with rfl | rfl <;> rfl
    rw [if_pos this]
  | cons c u ih =>
    have ih' := ih (fun h => hu (by simp [h])) (fun u1 ws o u2 h1 h2 h3 => hno (c :: u1) ws o u2 h1 h2 (by
      rw [h3]; rfl))
    simp only [List.cons_append]
    rw [argSplit]
    have hsep : ((c == '}' || c == ']') && sepAfter (u ++ cl :: B)) = false := by
      by_cases hc : (c == '}' || c == ']') = true
      · rw [hc, Bool.true_and]
        have hcot : c = ot := by
          have hne : c ≠ cl := fun h => hu (by simp [h])
          simp only [Bool.or_eq_true, beq_iff_eq] at hc
          rcases hcl with ⟨rfl, rfl⟩ | ⟨rfl, rfl⟩ <;> tauto
        have hcs : isSpace cl = false := by rcases hcl with ⟨rfl, _⟩ | ⟨rfl, _⟩ <;> decide
        have hco : (cl == '{' || cl == '[') = false := by
          rcases hcl with ⟨rfl, _⟩ | ⟨rfl, _⟩ <;> decide
        cases hd : u.dropWhile isSpace with
        | nil =>
          have : (u ++ cl :: B).dropWhile isSpace = cl :: B := by
            rw [List.dropWhile_append, hd]
            simp [List.dropWhile, hcs]
          unfold sepAfter; rw [this]; exact hco
        | cons o r =>
          have : (u ++ cl :: B).dropWhile isSpace = o :: r ++ cl :: B := by
            rw [List.dropWhile_append, hd]; rfl
          unfold sepAfter
          rw [this]
          simp only [List.cons_append]
          by_contra hcon
          have ho : Opener o := by
            rw [Bool.not_eq_false, Bool.or_eq_true, beq_iff_eq, beq_iff_eq] at hcon
            exact hcon
          obtain ⟨ws, hw1, hw2⟩ := dropWhile_spaces hd
          exact hno [] ws o r hw2 ho (by rw [hw1, hcot]; simp)
      · rw [Bool.not_eq_true] at hc; rw [hc, Bool.false_and]
    rw [hsep, if_neg (by simp), ih']

theorem groups_head {A : Str} (h : Groups A) : A = [] ∨ ∃ o r, A = o :: r ∧ Opener o := by
  cases h with
  | nil => exact Or.inl rfl
  | curly u B _ _ => exact Or.inr ⟨'{', _, rfl, Or.inl rfl⟩
  | square u B _ _ => exact Or.inr ⟨'[', _, rfl, Or.inr rfl⟩

/-- Clean argument strings are split into their groups and print back. -/
theorem argSplit_groups {A : Str} (h : Groups A) : ∀ (p : Char), ArgBefore p → Basic (p :: A) →
    ∃ ps as, argSplit A = ps ++ [[]] ∧ mkArgL ps = .ok as ∧ (as.map printArg).flatten = A ∧
      (A ≠ [] → as ≠ []) := by
  induction h with
  | nil => intro p _ _; exact ⟨[], [], rfl, rfl, rfl, fun h => absurd rfl h⟩
  | curly u B hu hB ih =>
    intro p hp hpl
    have hsub : Basic ('}' :: B) := hpl.infix ⟨p :: '{' :: u, [], by simp⟩
    obtain ⟨ps, as, h1, h2, h3, _⟩ := ih '}' (Or.inr (Or.inr (Or.inl rfl))) hsub
    have hin := argSplit_inner '}' ']' (Or.inl ⟨rfl, rfl⟩) B (groups_head hB) u hu (by
      intro u1 ws o u2 hws ho he
      refine hpl.noMixedCurly p u1 ws o hp (fun hm => hu (by rw [he]; simp [hm])) hws ho ?_
      exact ⟨[], u2 ++ '}' :: B, by rw [he]; simp⟩)
    refine ⟨('{' :: u) :: ps, .req u :: as, ?_, ?_, ?_, by simp⟩
    · simp only [List.cons_append]
      rw [argSplit]
      have : (('{' == '}' || '{' == ']') && sepAfter (u ++ '}' :: B)) = false := by rfl
      rw [this, if_neg (by simp), hin, h1]
    · simp [mkArgL, mkArg, h2]
    · simp only [List.map_cons, List.flatten_cons, h3, printArg]; simp
  | square u B hu hB ih =>
    intro p hp hpl
    have hsub : Basic (']' :: B) := hpl.infix ⟨p :: '[' :: u, [], by simp⟩
    obtain ⟨ps, as, h1, h2, h3, _⟩ := ih ']' (Or.inr (Or.inr (Or.inr rfl))) hsub
    have hin := argSplit_inner ']' '}' (Or.inr ⟨rfl, rfl⟩) B (groups_head hB) u hu (by
      intro u1 ws o u2 hws ho he
      refine hpl.noMixedSquare p u1 ws o hp (fun hm => hu (by rw [he]; simp [hm])) hws ho ?_
      exact ⟨[], u2 ++ ']' :: B, by rw [he]; simp⟩)
    refine ⟨('[' :: u) :: ps, .opt u :: as, ?_, ?_, ?_, by simp⟩
    · simp only [List.cons_append]
      rw [argSplit]
      have : (('[' == '}' || '[' == ']') && sepAfter (u ++ ']' :: B)) = false := by rfl
      rw [this, if_neg (by simp), hin, h1]
    · simp [mkArgL, mkArg, h2]
    · simp only [List.map_cons, List.flatten_cons, h3, printArg]; simp

theorem mkArgs_spec {A : Str} (h : Groups A) (p : Char) (hp : ArgBefore p) (hpl : Basic (p :: A)) :
    ∃ as, mkArgs A = .ok as ∧ (as.map printArg).flatten = A ∧ (A ≠ [] → as ≠ []) := by
  unfold mkArgs
  by_cases hA : A = []
  · subst hA; exact ⟨[], by simp, rfl, fun h => absurd rfl h⟩
  · obtain ⟨ps, as, h1, h2, h3, h4⟩ := argSplit_groups h p hp hpl
    refine ⟨as, ?_, h3, h4⟩
    rw [if_neg hA]
    simp only [h1]
    simp [h2]

/-! ### Items -/

/-- The text an item stands for. -/
def itemStr : Item → Str
  | .str s => s
  | .cmd n args _ => '\\' :: n ++ (args.map printArg).flatten
  | .node n => print n

def itemsStr (l : List Item) : Str := (l.map itemStr).flatten

theorem itemsStr_append (a b : List Item) : itemsStr (a ++ b) = itemsStr a ++ itemsStr b := by
  simp [itemsStr]

theorem itemsStr_cons (a : Item) (b : List Item) : itemsStr (a :: b) = itemStr a ++ itemsStr b := by
  simp [itemsStr]

def isLR (n : Str) : Prop := n = "left".toList ∨ n = "right".toList

/-- What the second stage needs to know of the items of a text `txt`. -/
def Good (txt : Str) : List Item → Prop
  | [] => True
  | .cmd n args orig :: l =>
    (orig = (args.map printArg).flatten ∧ ((('\\' :: n ++ orig) <:+: txt ∧ Groups orig) ∧ ¬ ['$', '$'] <:+: orig) ∧
      (orig ≠ [] → args ≠ []) ∧ orig.length < txt.length ∧
      (isLR n → args = [] → ∃ c t l', l = .str (c :: t) :: l') ∧
      (n = "right".toList → args = [])) ∧ Good txt l
  | _ :: l => Good txt l

theorem Good.append {txt : Str} {a b : List Item} (ha : Good txt a) (hb : Good txt b) :
    Good txt (a ++ b) := by
  induction a with
  | nil => exact hb
  | cons x a ih =>
    cases x with
    | str s => exact ih ha
    | node n => exact ih ha
    | cmd n args orig =>
      simp only [List.cons_append, Good] at ha ⊢
      obtain ⟨⟨h1, h2, h3, h4, h5, h6⟩, h7⟩ := ha
      refine ⟨⟨h1, h2, h3, h4, ?_, h6⟩, ih h7⟩
      intro hn ha
      obtain ⟨c, t, l', rfl⟩ := h5 hn ha
      exact ⟨c, t, l' ++ b, rfl⟩

/-- The items of a chunk of text. -/
theorem chunk_spec (txt : Str) (hplain : Basic txt) (f : Nat) : ∀ t : Str, t.length ≤ f → t <:+: txt →
    ¬ ['$', '$'] <:+: t →
    ∃ s items, chunkItems (commandSplit f t).1 (commandSplit f t).2 = .ok (.str s :: items) ∧
      itemsStr (.str s :: items) = t ∧ Good txt items ∧
      (s = [] → t = [] ∨ (command t).isSome) := by
  induction f with
  | zero =>
    intro t ht hi hd
    have : t = [] := List.length_eq_zero_iff.mp (by omega)
    subst this
    exact ⟨[], [], rfl, rfl, trivial, fun _ => Or.inl rfl⟩
  | succ f ih =>
    intro t ht hi hd
    unfold commandSplit
    cases hc : command t with
    | some q =>
      obtain ⟨n, a, r⟩ := q
      simp only
      obtain ⟨hcmd, _⟩ := command_spec hc
      have hr : r <:+: txt := by
        refine List.IsInfix.trans ?_ hi
        exact ⟨'\\' :: n ++ a, [], by rw [hcmd.eq]; simp⟩
      have hlen : r.length ≤ f := by
        have := congrArg List.length hcmd.eq
        simp at this
        omega
      obtain ⟨s, items, h1, h2, h3, h4⟩ := ih r hlen hr
        (fun h => hd (h.trans ⟨'\\' :: n ++ a, [], by rw [hcmd.eq]; simp⟩))
      obtain ⟨n', p, hn', hp⟩ := hcmd.name
      have hpl : Basic (p :: a) := by
        refine hplain.infix (List.IsInfix.trans ?_ hi)
        exact ⟨'\\' :: n', r, by rw [hcmd.eq, hn']; simp⟩
      obtain ⟨as, ha1, ha2, ha3⟩ := mkArgs_spec hcmd.args p hp hpl
      refine ⟨[], .cmd n as a :: .str s :: items, ?_, ?_, ?_, ?_⟩
      · simp only [chunkItems, ha1, h1]
      · rw [itemsStr_cons, itemsStr_cons, h2]
        simp only [itemStr, ha2]
        rw [hcmd.eq]; simp
      · refine ⟨⟨ha2.symm, ?_, ha3, ?_, ?_, ?_⟩, h3⟩
        · have hai : a <:+: t := ⟨'\\' :: n, r, by rw [hcmd.eq]⟩
          exact ⟨⟨List.IsInfix.trans ⟨[], r, by rw [hcmd.eq]; simp⟩ hi, hcmd.args⟩, fun h => hd (h.trans hai)⟩
        · have := congrArg List.length hcmd.eq
          simp at this
          have := hi.length_le
          omega
        · intro hlr has
          have ha0 : a = [] := by
            by_contra hne; exact ha3 hne has
          obtain ⟨c, r', hr', hcw⟩ := hcmd.next ha0
          cases s with
          | cons c t => exact ⟨c, t, _, rfl⟩
          | nil =>
            exfalso
            rcases h4 rfl with h4 | h4
            · rw [h4] at hr'; cases hr'
            · obtain ⟨⟨n2, a2, r2⟩, h4⟩ := Option.isSome_iff_exists.mp h4
              obtain ⟨_, w, l', hw, hww⟩ := command_spec h4
              have hti : ('\\' :: n ++ ['\\', w]) <:+: txt := by
                refine List.IsInfix.trans ?_ hi
                exact ⟨[], l', by rw [hcmd.eq, ha0, hw]; simp⟩
              rcases hlr with rfl | rfl
              · exact hplain.noLeftCmd w hww hti
              · exact hplain.noRightCmd w hww hti
        · intro hn
          by_contra hne
          have ha0 : a ≠ [] := by
            intro h0; apply hne
            subst h0
            rw [mkArgs] at ha1
            simp at ha1
            exact ha1
          rcases groups_head hcmd.args with h0 | ⟨o, r', h0, ho⟩
          · exact ha0 h0
          · refine hplain.noRightArg o ho (List.IsInfix.trans ?_ hi)
            exact ⟨[], r' ++ r, by rw [hcmd.eq, hn, h0]; simp⟩
      · intro _; exact Or.inr rfl
    | none =>
      simp only
      cases t with
      | nil => exact ⟨[], [], rfl, rfl, trivial, fun _ => Or.inl rfl⟩
      | cons c t =>
        have hti : t <:+: txt := List.IsInfix.trans ⟨[c], [], by simp⟩ hi
        obtain ⟨s, items, h1, h2, h3, h4⟩ := ih t (by simpa using ht) hti
          (fun h => hd (h.trans ⟨[c], [], by simp⟩))
        cases hq : commandSplit f t with
        | mk ps e =>
          rw [hq] at h1
          cases ps with
          | nil =>
            simp only [chunkItems, Except.ok.injEq, List.cons.injEq, Item.str.injEq] at h1
            obtain ⟨rfl, rfl⟩ := h1
            refine ⟨c :: e, [], by simp only [hq, chunkItems], ?_, trivial, by simp⟩
            rw [itemsStr_cons] at h2 ⊢
            simpa [itemStr] using h2
          | cons q ps =>
            obtain ⟨t', n, a⟩ := q
            simp only [chunkItems] at h1 ⊢
            cases hm : mkArgs a with
            | error x => rw [hm] at h1; cases h1
            | ok args =>
              simp only [hm] at h1 ⊢
              cases hk : chunkItems ps e with
              | error x => rw [hk] at h1; cases h1
              | ok l =>
                simp only [hk] at h1 ⊢
                simp only [Except.ok.injEq, List.cons.injEq, Item.str.injEq] at h1
                obtain ⟨rfl, rfl⟩ := h1
                refine ⟨c :: t', _, by simp only [hq, chunkItems, hm, hk], ?_, h3, by simp⟩
                rw [itemsStr_cons] at h2 ⊢
                simpa [itemStr] using h2

/-! ### Environments and mathematics -/

theorem findSub_spec {pat l b a : Str} (h : findSub pat l = some (b, a)) : l = b ++ pat ++ a := by
  induction l generalizing b a with
  | nil =>
    unfold findSub at h
    split_ifs at h with hp
    simp only [Option.some.injEq, Prod.mk.injEq] at h
    obtain ⟨rfl, rfl⟩ := h
    simp [hp]
  | cons c l ih =>
    unfold findSub at h
    split_ifs at h with hp
    · simp only [Option.some.injEq, Prod.mk.injEq] at h
      obtain ⟨rfl, rfl⟩ := h
      rw [List.isPrefixOf_iff_prefix] at hp
      obtain ⟨x, hx⟩ := hp
      rw [← hx]; simp
    · rw [Option.map_eq_some_iff] at h
      obtain ⟨⟨b', a'⟩, h1, h2⟩ := h
      simp only [Prod.mk.injEq] at h2
      obtain ⟨rfl, rfl⟩ := h2
      rw [ih h1]; simp

theorem findSub_none {pat l : Str} (h : findSub pat l = none) : ¬ pat <:+: l := by
  induction l with
  | nil =>
    unfold findSub at h
    split_ifs at h with hp
    intro hi
    exact hp (List.eq_nil_of_infix_nil hi)
  | cons c l ih =>
    unfold findSub at h
    split_ifs at h with hp
    rw [Option.map_eq_none_iff] at h
    intro hi
    rcases List.infix_cons_iff.mp hi with h1 | h1
    · exact hp (List.isPrefixOf_iff_prefix.mpr h1)
    · exact ih h h1

/-- The name of a matched environment contains no closing brace: if the first attempt fails, the
longer ones do. -/
theorem envName_fail {n0 : Str} {l : Str} : ∀ {x : Str}, ¬ endTag n0 <:+: l →
    envName (n0 ++ '}' :: x) l = none := by
  induction l with
  | nil => intro x _; rfl
  | cons c l ih =>
    intro x h
    have h' : ¬ endTag n0 <:+: l := fun hi => h (List.infix_cons_iff.mpr (Or.inr hi))
    unfold envName
    have hrec : envName (n0 ++ '}' :: x ++ [c]) l = none := by
      have := ih (x := x ++ [c]) h'
      simpa using this
    by_cases hc : c = '}'
    · rw [if_pos hc]
      cases hf : findSub (endTag (n0 ++ '}' :: x)) l with
      | none => exact hrec
      | some p =>
        exfalso
        obtain ⟨b, a⟩ := p
        have := findSub_spec hf
        apply h'
        refine ⟨b, x ++ ['}'] ++ a, ?_⟩
        rw [this]
        simp [endTag]
    · rw [if_neg hc]; exact hrec

theorem envName_spec {l : Str} : ∀ {name n c r : Str}, '}' ∉ name →
    envName name l = some (n, c, r) →
    '}' ∉ n ∧ name ++ l = n ++ '}' :: c ++ endTag n ++ r ∧ ∃ l0, findSub (endTag n) l0 = some (c, r) := by
  induction l with
  | nil => intro name n c r _ h; simp [envName] at h
  | cons x l ih =>
    intro name n c r hn h
    unfold envName at h
    split_ifs at h with hx
    · cases hf : findSub (endTag name) l with
      | some p =>
        rw [hf] at h
        simp only [Option.some.injEq, Prod.mk.injEq] at h
        obtain ⟨rfl, h2⟩ := h
        subst h2
        refine ⟨hn, ?_, _, hf⟩
        rw [hx, findSub_spec hf]
        simp
      | none =>
        rw [hf] at h
        simp only at h
        rw [hx, envName_fail (findSub_none hf)] at h
        cases h
    · have hn' : '}' ∉ name ++ [x] := by
        simp only [List.mem_append, List.mem_singleton, not_or]
        exact ⟨hn, fun h => hx h.symm⟩
      obtain ⟨h1, h2, h3⟩ := ih hn' h
      exact ⟨h1, by rw [← h2]; simp, h3⟩

theorem findSub_char {c : Char} {b a : Str} (h : c ∉ b) : findSub [c] (b ++ c :: a) = some (b, a) := by
  induction b with
  | nil => simp [findSub]
  | cons x b ih =>
    simp only [List.cons_append, findSub]
    have hne : c ≠ x := fun e => h (by simp [e])
    have : ([c].isPrefixOf (x :: (b ++ c :: a))) = false := by
      simp [List.isPrefixOf, hne]
    rw [this, ih (fun hm => h (by simp [hm]))]
    simp

theorem rfindSub_none {pat l : Str} (hp : pat ≠ []) (h : ¬ pat <:+: l) : rfindSub pat l = none := by
  induction l with
  | nil => simp [rfindSub, hp]
  | cons c l ih =>
    unfold rfindSub
    rw [ih (fun hi => h (List.infix_cons_iff.mpr (Or.inr hi)))]
    simp only
    rw [if_neg]
    intro hpre
    rw [List.isPrefixOf_iff_prefix] at hpre
    exact h hpre.isInfix

theorem rfindSub_some {pat s : Str} (hs : rfindSub pat s = some []) (b : Str) :
    rfindSub pat (b ++ s) = some b := by
  induction b with
  | nil => exact hs
  | cons c b ih => simp only [List.cons_append, rfindSub]; rw [ih]

/-- `\end` occurs in `{N}` only inside `N`. -/
theorem end_in_braces {N : Str} (h : ¬ "\\end".toList <:+: N) :
    ¬ "\\end".toList <:+: '{' :: N ++ ['}'] := by
  rintro ⟨x, y, hxy⟩
  cases x with
  | nil => simp at hxy
  | cons c x =>
    simp only [List.cons_append, List.cons.injEq] at hxy
    obtain ⟨_, hxy⟩ := hxy
    rcases List.eq_nil_or_concat y with rfl | ⟨y', d, rfl⟩
    · have := congrArg List.getLast? hxy
      simp at this
    · apply h
      refine ⟨x, y', ?_⟩
      have : (x ++ "\\end".toList ++ y') ++ [d] = N ++ ['}'] := by rw [← hxy]; simp
      exact (List.append_inj' this rfl).1

theorem envParts_spec {N C : Str} (h1 : '}' ∉ N) (h2 : ¬ "\\end".toList <:+: N) :
    envParts ("\\begin{".toList ++ N ++ ['}'] ++ C ++ endTag N) = .ok (N, C) := by
  unfold envParts
  have e1 : "\\begin{".toList ++ N ++ ['}'] ++ C ++ endTag N =
      "\\begin".toList ++ '{' :: (N ++ ['}'] ++ C ++ endTag N) := by simp
  have e2 : "\\begin{".toList ++ N ++ ['}'] ++ C ++ endTag N =
      ("\\begin{".toList ++ N) ++ '}' :: (C ++ endTag N) := by simp
  have e3 : "\\begin{".toList ++ N ++ ['}'] ++ C ++ endTag N =
      ("\\begin{".toList ++ N ++ ['}'] ++ C) ++ endTag N := rfl
  have f1 : findSub ['{'] ("\\begin{".toList ++ N ++ ['}'] ++ C ++ endTag N) =
      some ("\\begin".toList, N ++ ['}'] ++ C ++ endTag N) := by
    rw [e1]; exact findSub_char (by decide)
  have f2 : findSub ['}'] ("\\begin{".toList ++ N ++ ['}'] ++ C ++ endTag N) =
      some ("\\begin{".toList ++ N, C ++ endTag N) := by
    rw [e2]
    refine findSub_char ?_
    rw [List.mem_append, not_or]
    exact ⟨by decide, h1⟩
  have f3 : rfindSub "\\end".toList (endTag N) = some [] := by
    have : endTag N = '\\' :: 'e' :: 'n' :: 'd' :: ('{' :: N ++ ['}']) := by simp [endTag]
    rw [this]
    have hn : ¬ "\\end".toList <:+: 'e' :: 'n' :: 'd' :: ('{' :: N ++ ['}']) := by
      intro hi
      rcases List.infix_cons_iff.mp hi with hp | hi
      · obtain ⟨z, hz⟩ := hp; simp at hz
      rcases List.infix_cons_iff.mp hi with hp | hi
      · obtain ⟨z, hz⟩ := hp; simp at hz
      rcases List.infix_cons_iff.mp hi with hp | hi
      · obtain ⟨z, hz⟩ := hp; simp at hz
      exact end_in_braces h2 hi
    unfold rfindSub
    rw [rfindSub_none (by simp) hn]
    simp [List.isPrefixOf]
  rw [f1, f2, e3, rfindSub_some f3]
  simp

theorem upToDollar_spec {l u r : Str} (h : upToDollar l = some (u, r)) :
    l = u ++ '$' :: r ∧ '$' ∉ u := by
  induction l generalizing u r with
  | nil => simp [upToDollar] at h
  | cons x l ih =>
    unfold upToDollar at h
    split_ifs at h with h1
    · simp only [Option.some.injEq, Prod.mk.injEq] at h
      obtain ⟨rfl, rfl⟩ := h
      exact ⟨by simp [h1], by simp⟩
    · rw [Option.map_eq_some_iff] at h
      obtain ⟨⟨a, b⟩, hab, he⟩ := h
      simp only [Prod.mk.injEq] at he
      obtain ⟨rfl, rfl⟩ := he
      obtain ⟨e1, e2⟩ := ih hab
      refine ⟨by rw [e1]; rfl, ?_⟩
      simp only [List.mem_cons, not_or]
      exact ⟨fun h => h1 h.symm, e2⟩

/-- Without `$$`, matched mathematics is `$u$`. -/
theorem mathAt_spec {l m r : Str} (hd : ¬ ['$', '$'] <:+: l) (h : mathAt l = some (m, r)) :
    l = m ++ r ∧ ∃ u, m = '$' :: u ++ ['$'] ∧ '$' ∉ u ∧ u ≠ [] := by
  unfold mathAt at h
  split at h
  · rename_i l'
    simp only at h
    have hne : ∀ x, l' ≠ '$' :: x := by
      intro x hx; exact hd ⟨[], x, by rw [hx]; rfl⟩
    split at h
    · rename_i x
      exact absurd rfl (hne x)
    · rw [Option.map_eq_some_iff] at h
      obtain ⟨⟨u, b⟩, hu, he⟩ := h
      obtain ⟨e1, e2⟩ := upToDollar_spec hu
      have hb : ∀ x, b ≠ '$' :: x := by
        intro x hx; exact hd ⟨'$' :: u, x, by rw [e1, hx]; simp⟩
      have hcl : close2 b = (['$'], b) := by
        unfold close2
        split
        · rename_i x; exact absurd rfl (hb x)
        · rfl
      simp only [hcl, Prod.mk.injEq] at he
      obtain ⟨rfl, rfl⟩ := he
      refine ⟨by rw [e1]; simp, u, rfl, e2, ?_⟩
      rintro rfl
      exact hne b e1
  · cases h

theorem Maths.of_char {c : Char} {l : Str} (h : Maths (c :: l)) (hc : c ≠ '$') : Maths l := by
  cases h with
  | char _ _ _ h => exact h
  | inline => exact absurd rfl hc
  | display => exact absurd rfl hc

theorem Maths.strip {a l : Str} (ha : '$' ∉ a) (h : Maths (a ++ l)) : Maths l := by
  induction a with
  | nil => exact h
  | cons c a ih => exact ih (fun hm => ha (by simp [hm])) (Maths.of_char h (fun hc => ha (by simp [hc])))

theorem dollar_split {u v a b : Str} (hu : '$' ∉ u) (hv : '$' ∉ v) (h : u ++ '$' :: a = v ++ '$' :: b) : u = v ∧ a = b := by
  induction u generalizing v with
  | nil =>
    cases v with
    | nil => simpa using h
    | cons c v => simp only [List.nil_append, List.cons_append, List.cons.injEq] at h; exact absurd (h.1 ▸ List.mem_cons_self) hv
  | cons c u ih =>
    cases v with
    | nil => simp only [List.nil_append, List.cons_append, List.cons.injEq] at h; exact absurd (by simp [h.1]) hu
    | cons d v =>
      simp only [List.cons_append, List.cons.injEq] at h
      obtain ⟨rfl, h⟩ := h
      obtain ⟨rfl, h'⟩ := ih (fun hm => hu (by simp [hm])) (fun hm => hv (by simp [hm])) h
      exact ⟨rfl, h'⟩

/-- What text with proper mathematics that begins with `$` looks like. -/
theorem Maths.at_dollar {l : Str} (h : Maths ('$' :: l)) :
    (∃ u r, l = u ++ '$' :: r ∧ '$' ∉ u ∧ u ≠ [] ∧ r.head? ≠ some '$' ∧ Maths r) ∨
    (∃ u r, l = '$' :: u ++ '$' :: '$' :: r ∧ '$' ∉ u ∧ Maths r) := by
  generalize hx : '$' :: l = x at h
  cases h with
  | nil => cases hx
  | char c l' hc h => simp only [List.cons.injEq] at hx; exact absurd hx.1.symm hc
  | inline u r h1 h2 h3 h4 => simp only [List.cons_append, List.cons.injEq, true_and] at hx; exact .inl ⟨u, r, hx, h1, h2, h3, h4⟩
  | display u r h1 h2 => simp only [List.cons_append, List.cons.injEq, true_and] at hx; exact .inr ⟨u, r, by simpa using hx, h1, h2⟩

/-- Proper mathematics is uniquely delimited. -/
theorem Maths.cancel {a : Str} (ha : Maths a) : ∀ {b : Str}, Maths (a ++ b) → Maths b := by
  induction ha with
  | nil => intro b h; exact h
  | char c l hc _ ih => intro b h; exact ih (Maths.of_char h hc)
  | inline u l h1 h2 h3 _ ih =>
    intro b h
    have h' : Maths ('$' :: (u ++ '$' :: (l ++ b))) := by simpa using h
    rcases Maths.at_dollar h' with ⟨v, r, e, hv, _, _, hr⟩ | ⟨v, r, e, _, _⟩
    · obtain ⟨_, rfl⟩ := dollar_split h1 hv e
      exact ih hr
    · cases u with
      | nil => exact absurd rfl h2
      | cons c u => simp only [List.cons_append, List.cons.injEq] at e; exact absurd (by simp [e.1]) h1
  | display u l h1 _ ih =>
    intro b h
    have h' : Maths ('$' :: ('$' :: u ++ '$' :: '$' :: (l ++ b))) := by simpa using h
    rcases Maths.at_dollar h' with ⟨v, r, e, hv, hv0, _, _⟩ | ⟨v, r, e, hv, hr⟩
    · cases v with
      | nil => exact absurd rfl hv0
      | cons c v => simp only [List.cons_append, List.cons.injEq] at e; exact absurd (e.1 ▸ List.mem_cons_self) hv
    · simp only [List.cons_append, List.cons.injEq, true_and] at e
      obtain ⟨_, e⟩ := dollar_split h1 hv e
      simp only [List.cons.injEq, true_and] at e
      subst e
      exact ih hr

theorem upToDollar_eq {u r : Str} (hu : '$' ∉ u) : upToDollar (u ++ '$' :: r) = some (u, r) := by
  induction u with
  | nil => simp [upToDollar]
  | cons c u ih =>
    have hc : c ≠ '$' := fun e => hu (by simp [e])
    simp only [List.cons_append, upToDollar]
    rw [if_neg hc, ih (fun hm => hu (by simp [hm]))]
    rfl

/-- What mathematics is matched in unproblematic text. -/
theorem mathAt_ok {l m r : Str} (hd : DollarsOk l) (h : mathAt l = some (m, r)) :
    l = m ++ r ∧ DollarsOk r ∧ ∃ d u, '$' ∉ u ∧ (d = false → u ≠ []) ∧
      m = (if d then ['$', '$'] else ['$']) ++ u ++ (if d then ['$', '$'] else ['$']) := by
  rcases hd with hd | ⟨hm, hd⟩
  · obtain ⟨e, u, hu, hud, hu0⟩ := mathAt_spec hd h
    refine ⟨e, .inl (fun hi => hd (hi.trans ⟨m, [], by rw [e]; simp⟩)), false, u, hud, fun _ => hu0, by simpa using hu⟩
  · have hr : ∀ {r}, (∃ m, l = m ++ r) → Maths r → DollarsOk r := by
      rintro r ⟨m, e⟩ hr
      exact .inr ⟨hr, fun N C h1 h2 h3 => hd N C h1 (h2.trans ⟨m, [], by rw [e]; simp⟩) h3⟩
    unfold mathAt at h
    split at h
    · rename_i l'
      simp only at h
      rcases Maths.at_dollar hm with ⟨u, r', rfl, hu, hu0, hh, hmr⟩ | ⟨u, r', rfl, hu, hmr⟩
      · cases u with
        | nil => exact absurd rfl hu0
        | cons c u =>
          have hc : c ≠ '$' := fun e => hu (by simp [e])
          have hcl : close2 r' = (['$'], r') := by
            unfold close2
            split
            · simp at hh
            · rfl
          split at h
          · rename_i heq; simp only [List.cons_append, List.cons.injEq] at heq; exact absurd heq.1 hc
          · rw [upToDollar_eq hu] at h
            simp only [hcl, Option.map_some, Option.some.injEq, Prod.mk.injEq] at h
            obtain ⟨rfl, rfl⟩ := h
            exact ⟨by simp, hr ⟨'$' :: c :: u ++ ['$'], by simp⟩ hmr, false, c :: u, hu, by simp, by simp⟩
      · split at h
        · rename_i l'' heq
          have e : l'' = u ++ '$' :: '$' :: r' := by simpa using heq.symm
          subst e
          rw [upToDollar_eq hu] at h
          simp only [close2, Option.some.injEq, Prod.mk.injEq] at h
          obtain ⟨rfl, rfl⟩ := h
          exact ⟨by simp, hr ⟨'$' :: '$' :: u ++ ['$', '$'], by simp⟩ hmr, true, u, hu, by simp, by simp⟩
        · rename_i hne; exact absurd rfl (hne _)
    · cases h

/-- `$$` always begins mathematics. -/
theorem mathAt_double (l : Str) : mathAt ('$' :: '$' :: l) ≠ none := by
  unfold mathAt
  simp only
  cases upToDollar l with
  | some p => simp
  | none => simp [upToDollar]

/-- Unproblematic text that does not begin with a match stays so without its first character. -/
theorem DollarsOk.tail {c : Char} {l : Str} (h : DollarsOk (c :: l)) (he : envAt (c :: l) = none) : DollarsOk l := by
  rcases h with h | ⟨hm, h⟩
  · exact .inl (fun hi => h (hi.trans ⟨[c], [], by simp⟩))
  · refine .inr ⟨?_, fun N C h1 h2 h3 => h N C h1 (h2.trans ⟨[c], [], by simp⟩) h3⟩
    by_cases hc : c = '$'
    · subst hc
      exfalso
      unfold envAt at he
      rw [if_neg (by simp [List.isPrefixOf])] at he
      rw [Option.map_eq_none_iff] at he
      rcases Maths.at_dollar hm with ⟨u, r', rfl, hu, hu0, hh, hmr⟩ | ⟨u, r', rfl, hu, hmr⟩
      · cases u with
        | nil => exact hu0 rfl
        | cons d u =>
          have hd : d ≠ '$' := fun e => hu (by simp [e])
          unfold mathAt at he
          simp only at he
          split at he
          · rename_i heq; simp only [List.cons_append, List.cons.injEq] at heq; exact absurd heq.1 hd
          · rw [upToDollar_eq hu] at he; cases he
      · exact mathAt_double _ (by simpa using he)
    · exact Maths.of_char hm hc

/-- The text before the first occurrence does not contain the string, even together with its beginning. -/
theorem findSub_first {pat l b a : Str} (h : findSub pat l = some (b, a)) (hp : pat ≠ []) : ¬ pat <:+: b ++ pat.dropLast := by
  induction l generalizing b a with
  | nil =>
    unfold findSub at h
    rw [if_neg hp] at h
    cases h
  | cons c l ih =>
    have hs := findSub_spec h
    unfold findSub at h
    split_ifs at h with hpre
    · simp only [Option.some.injEq, Prod.mk.injEq] at h
      obtain ⟨rfl, _⟩ := h
      intro hi
      have := hi.length_le
      have h0 : 0 < pat.length := List.length_pos_iff.2 hp
      simp at this
      omega
    · rw [Option.map_eq_some_iff] at h
      obtain ⟨⟨b', a'⟩, h1, h2⟩ := h
      simp only [Prod.mk.injEq] at h2
      obtain ⟨rfl, rfl⟩ := h2
      intro hi
      rw [List.cons_append] at hi
      rcases List.infix_cons_iff.mp hi with h3 | h3
      · apply hpre
        rw [List.isPrefixOf_iff_prefix]
        refine h3.trans ?_
        rw [hs]
        refine ⟨pat.drop (pat.length - 1) ++ a', ?_⟩
        have : pat.dropLast ++ pat.drop (pat.length - 1) = pat := by
          rw [List.dropLast_eq_take, List.take_append_drop]
        calc c :: (b' ++ pat.dropLast) ++ (pat.drop (pat.length - 1) ++ a')
            = c :: b' ++ (pat.dropLast ++ pat.drop (pat.length - 1)) ++ a' := by simp
          _ = _ := by rw [this]
      · exact ih h1 h3

/-- Where the texts come from that the parser is called on again: the content of an environment or of
mathematics, the arguments of `\left` after their first character. -/
inductive Inner (txt t : Str) : Prop where
  | env (a N b : Str) : txt = a ++ ("\\begin{".toList ++ N ++ ['}'] ++ t ++ endTag N) ++ b → Inner txt t
  | math (a b : Str) : '$' ∉ t → txt = a ++ ('$' :: t ++ ['$']) ++ b → Inner txt t
  | left (c : Char) : Groups (c :: t) → ("\\left".toList ++ c :: t) <:+: txt → Inner txt t

/-- What is needed of the parser on the contents. -/
def ParsesBelow (parse : Str → Except Err (List Node)) (txt : Str) : Prop :=
  ∀ t : Str, t.length < txt.length → t <:+: txt → DollarsOk t → Inner txt t →
    ∃ ns, parse t = .ok ns ∧ printL ns = t

theorem envAt_spec {parse : Str → Except Err (List Node)} {txt l r : Str} {m : Match}
    (hplain : Basic txt) (hi : l <:+: txt) (hdl : DollarsOk l) (hp : ParsesBelow parse txt)
    (h : envAt l = some (m, r)) :
    l = m.str ++ r ∧ m.str ≠ [] ∧ DollarsOk r ∧ ∃ n, matchNode parse m = .ok n ∧ print n = m.str := by
  have hl := hplain.infix hi
  unfold envAt at h
  split_ifs at h with hb
  · cases hn : envName [] (l.drop 7) with
    | none => rw [hn] at h; cases h
    | some q =>
      obtain ⟨N, C, r'⟩ := q
      rw [hn] at h
      simp only [Option.some.injEq, Prod.mk.injEq] at h
      obtain ⟨rfl, rfl⟩ := h
      obtain ⟨h1, h2, l0, hl0⟩ := envName_spec (by simp) hn
      rw [List.isPrefixOf_iff_prefix] at hb
      obtain ⟨z, hz⟩ := hb
      have hz' : l.drop 7 = z := by rw [← hz]; rfl
      rw [hz'] at h2
      have hl' : l = "\\begin{".toList ++ N ++ ['}'] ++ C ++ endTag N ++ r' := by
        rw [← hz]
        have : z = N ++ '}' :: C ++ endTag N ++ r' := h2
        rw [this]; simp
      have hN : ¬ "\\end".toList <:+: N := by
        rintro ⟨x, y, hxy⟩
        refine hl.noEndName x (fun hm => h1 (by rw [← hxy]; simp [hm])) ?_
        refine ⟨[], y ++ ['}'] ++ C ++ endTag N ++ r', ?_⟩
        rw [hl', ← hxy]; simp
      have hCi : C <:+: txt := by
        refine List.IsInfix.trans ?_ hi
        exact ⟨"\\begin{".toList ++ N ++ ['}'], endTag N ++ r', by rw [hl']; simp⟩
      have hClen : C.length < txt.length := by
        have := hi.length_le
        rw [hl'] at this
        simp only [List.length_append, List.length_cons] at this
        omega
      have hdC : DollarsOk C ∧ DollarsOk r' := by
        have hCl : C <:+: l := ⟨"\\begin{".toList ++ N ++ ['}'], endTag N ++ r', by rw [hl']; simp⟩
        have hrl : r' <:+: l := ⟨"\\begin{".toList ++ N ++ ['}'] ++ C ++ endTag N, [], by rw [hl']; simp⟩
        rcases hdl with hd | ⟨hm, hd⟩
        · exact ⟨.inl (fun hi => hd (hi.trans hCl)), .inl (fun hi => hd (hi.trans hrl))⟩
        · obtain ⟨hN, hMC⟩ := hd N C h1 ⟨[], r', by rw [hl']; simp⟩ (findSub_first hl0 (by simp [endTag]))
          refine ⟨.inr ⟨hMC, fun N' C' h1 h2 h3 => hd N' C' h1 (h2.trans hCl) h3⟩,
            .inr ⟨?_, fun N' C' h1 h2 h3 => hd N' C' h1 (h2.trans hrl) h3⟩⟩
          have e1 : l = ("\\begin{".toList ++ N ++ ['}']) ++ (C ++ (endTag N ++ r')) := by rw [hl']; simp
          rw [e1] at hm
          have hm1 := Maths.strip (by simp [hN]) hm
          have hm2 := Maths.cancel hMC hm1
          exact Maths.strip (by simp [endTag, hN]) hm2
      obtain ⟨ns, h3, h4⟩ := hp C hClen hCi hdC.1 (by
        obtain ⟨x, y, hxy⟩ := hi
        exact .env x N (r' ++ y) (by rw [← hxy, hl']; simp))
      refine ⟨hl', List.append_ne_nil_of_right_ne_nil _ (by simp [endTag]), hdC.2, .env N ns, ?_, ?_⟩
      · simp only [matchNode, envParts_spec h1 hN, h3]
      · rw [print_env, h4]; rfl
  · rw [Option.map_eq_some_iff] at h
    obtain ⟨⟨s, r'⟩, h1, h2⟩ := h
    simp only [Prod.mk.injEq] at h2
    obtain ⟨rfl, rfl⟩ := h2
    obtain ⟨e, hdr, d, u, hud, hu0, hu⟩ := mathAt_ok hdl h1
    have hul : u <:+: l := ⟨if d then ['$', '$'] else ['$'], (if d then ['$', '$'] else ['$']) ++ r', by rw [e, hu]; simp⟩
    have hui : u <:+: txt := hul.trans hi
    have hulen : u.length < txt.length := by
      have := hi.length_le
      rw [e, hu] at this
      cases d <;> simp at this <;> omega
    have hdu : DollarsOk u := .inl (fun hi => hud (hi.subset (by simp)))
    obtain ⟨ns, h3, h4⟩ := hp u hulen hui hdu (by
      obtain ⟨x, y, hxy⟩ := hi
      cases d with
      | false => exact .math x (r' ++ y) hud (by rw [← hxy, e, hu]; simp)
      | true => exact .math (x ++ ['$']) ('$' :: r' ++ y) hud (by rw [← hxy, e, hu]; simp))
    refine ⟨e, by cases d <;> simp [Match.str, hu], hdr, .math d ns, ?_, ?_⟩
    · have : mathParts s = .ok (d, u) := by
        rw [hu]
        cases d with
        | true => simp [mathParts]
        | false =>
          cases u with
          | nil => exact absurd rfl (hu0 rfl)
          | cons c u =>
            have hc : c ≠ '$' := fun hc => hud (by simp [hc])
            simp only [Bool.false_eq_true, if_false]
            unfold mathParts
            split
            · rename_i heq; simp at heq; exact absurd heq.1 hc
            · rename_i l heq
              simp only [List.cons_append, List.nil_append, List.cons.injEq, true_and] at heq
              subst heq
              simp
            · rename_i h1 h2; exact absurd rfl (h2 _)
      simp only [matchNode, this, h3]
    · rw [print_math, h4]; simp [Match.str, hu]

/-- The text that was split. -/
def envCat : List (Str × Match) → Str → Str
  | [], e => e
  | (t, m) :: ps, e => t ++ m.str ++ envCat ps e

theorem envSplit_spec {txt : Str}
    (hat : ∀ l m r, l <:+: txt → DollarsOk l → envAt l = some (m, r) → l = m.str ++ r ∧ m.str ≠ [] ∧ DollarsOk r)
    (f : Nat) : ∀ l : Str, l.length ≤ f → l <:+: txt → DollarsOk l →
    envCat (envSplit f l).1 (envSplit f l).2 = l ∧
    (∀ tm ∈ (envSplit f l).1, ∃ l' r', l' <:+: txt ∧ DollarsOk l' ∧ envAt l' = some (tm.2, r')) ∧
    (∀ tm ∈ (envSplit f l).1, ¬ ['$', '$'] <:+: tm.1) ∧ ¬ ['$', '$'] <:+: (envSplit f l).2 := by
  induction f with
  | zero =>
    intro l hl hi hd
    have : l = [] := List.length_eq_zero_iff.mp (by omega)
    subst this
    exact ⟨rfl, by simp [envSplit], by simp [envSplit], by simp [envSplit]⟩
  | succ f ih =>
    intro l hl hi hd
    unfold envSplit
    cases he : envAt l with
    | some q =>
      obtain ⟨m, r⟩ := q
      obtain ⟨h1, h2, hdr⟩ := hat l m r hi hd he
      have hr : r <:+: txt := List.IsInfix.trans ⟨m.str, [], by rw [h1]; simp⟩ hi
      have hrl : r.length ≤ f := by
        have := congrArg List.length h1
        have h3 : 0 < m.str.length := List.length_pos_iff.mpr h2
        simp at this
        omega
      obtain ⟨h3, h4, h5, h6⟩ := ih r hrl hr hdr
      simp only
      refine ⟨?_, ?_, ?_, h6⟩
      · simp only [envCat, List.nil_append]
        rw [h3]; exact h1.symm
      · intro tm htm
        rcases List.mem_cons.mp htm with rfl | htm
        · exact ⟨l, r, hi, hd, he⟩
        · exact h4 tm htm
      · intro tm htm
        rcases List.mem_cons.mp htm with rfl | htm
        · simp
        · exact h5 tm htm
    | none =>
      simp only
      cases l with
      | nil => exact ⟨rfl, by simp, by simp, by simp⟩
      | cons c l =>
        have hli : l <:+: txt := List.IsInfix.trans ⟨[c], [], by simp⟩ hi
        obtain ⟨h3, h4, h5, h6⟩ := ih l (by simpa using hl) hli (hd.tail he)
        have hcons : ∀ t x, l = t ++ x → ¬ ['$', '$'] <:+: t → ¬ ['$', '$'] <:+: c :: t := by
          intro t x hx ht hi
          rcases List.infix_cons_iff.mp hi with h | h
          · obtain ⟨z, hz⟩ := h
            simp only [List.cons_append, List.nil_append, List.cons.injEq] at hz
            obtain ⟨rfl, rfl⟩ := hz
            subst hx
            unfold envAt at he
            rw [if_neg (by simp [List.isPrefixOf])] at he
            rw [Option.map_eq_none_iff] at he
            exact mathAt_double _ he
          · exact ht h
        cases hq : envSplit f l with
        | mk ps e =>
          rw [hq] at h3 h4 h5 h6
          cases ps with
          | nil =>
            simp only [envCat] at h3
            simp only [hq, envCat]
            exact ⟨by rw [h3], by simp, by simp, hcons e [] (by simp [h3]) h6⟩
          | cons q ps =>
            obtain ⟨t, m⟩ := q
            simp only [envCat] at h3
            simp only [hq, envCat, List.cons_append]
            refine ⟨by rw [h3], ?_, ?_, h6⟩
            · intro tm htm
              rcases List.mem_cons.mp htm with rfl | htm
              · exact h4 (t, m) (by simp)
              · exact h4 tm (by simp [htm])
            · intro tm htm
              rcases List.mem_cons.mp htm with rfl | htm
              · exact hcons t (m.str ++ envCat ps e) (by rw [← h3]; simp) (h5 (t, m) (by simp))
              · exact h5 tm (by simp [htm])

/-- First stage: the items of a text print as the text. -/
theorem first_spec {parse : Str → Except Err (List Node)} {txt : Str} (hplain : Basic txt)
    (hp : ParsesBelow parse txt) (ps : List (Str × Match)) (e : Str) (hi : envCat ps e <:+: txt)
    (hm : ∀ tm ∈ ps, ∃ l' r', l' <:+: txt ∧ DollarsOk l' ∧ envAt l' = some (tm.2, r'))
    (hdc : ∀ tm ∈ ps, ¬ ['$', '$'] <:+: tm.1) (hde : ¬ ['$', '$'] <:+: e) :
    ∃ items, firstItems parse ps e = .ok items ∧ itemsStr items = envCat ps e ∧ Good txt items := by
  induction ps with
  | nil =>
    obtain ⟨s, items, h1, h2, h3, _⟩ := chunk_spec txt hplain e.length e (le_refl _) hi hde
    exact ⟨_, h1, h2, h3⟩
  | cons q ps ih =>
    obtain ⟨t, m⟩ := q
    simp only [envCat] at hi
    have hti : t <:+: txt := List.IsInfix.trans ⟨[], m.str ++ envCat ps e, by simp⟩ hi
    obtain ⟨s, items, h1, h2, h3, _⟩ := chunk_spec txt hplain t.length t (le_refl _) hti (hdc (t, m) (by simp))
    obtain ⟨l', r', hl', hdl', he⟩ := hm (t, m) (by simp)
    obtain ⟨_, _, _, n, h4, h5⟩ := envAt_spec hplain hl' hdl' hp he
    obtain ⟨its, h6, h7, h8⟩ := ih (List.IsInfix.trans ⟨t ++ m.str, [], by simp⟩ hi)
      (fun tm htm => hm tm (by simp [htm])) (fun tm htm => hdc tm (by simp [htm]))
    refine ⟨.str s :: items ++ .node n :: its, ?_, ?_, ?_⟩
    · simp only at h4
      simp only [firstItems, h1, h4, h6]
    · rw [itemsStr_append, itemsStr_cons (.node n), h2, h7]
      simp only [envCat, itemStr, h5]
      simp
    · exact Good.append (a := .str s :: items) h3 h8

/-! ### The later stages -/

theorem itemsStr_nodes (ns : List Node) : itemsStr (ns.map .node) = printL ns := by
  induction ns with
  | nil => rfl
  | cons n ns ih => rw [List.map_cons, itemsStr_cons, ih, printL_cons]; rfl

/-- Second stage: `\left` and `\right`. -/
theorem left_spec {parse : Str → Except Err (List Node)} {txt : Str}
    (hp : ParsesBelow parse txt) (items : List Item) (hg : Good txt items) :
    ∃ its, fixLeftRight parse items = .ok its ∧ itemsStr its = itemsStr items ∧
      (∀ s l, items = .str s :: l → ∃ l', its = .str s :: l') := by
  induction items with
  | nil => exact ⟨[], rfl, rfl, by simp⟩
  | cons it l ih =>
    cases it with
    | str s =>
      obtain ⟨its, h1, h2, _⟩ := ih hg
      refine ⟨.str s :: its, by simp [fixLeftRight, h1, leftRight], by
        rw [itemsStr_cons, itemsStr_cons, h2], ?_⟩
      intro s' l' h
      simp only [List.cons.injEq, Item.str.injEq] at h
      obtain ⟨rfl, _⟩ := h
      exact ⟨its, rfl⟩
    | node n =>
      obtain ⟨its, h1, h2, _⟩ := ih hg
      exact ⟨.node n :: its, by simp [fixLeftRight, h1, leftRight], by
        rw [itemsStr_cons, itemsStr_cons, h2], by simp⟩
    | cmd n args orig =>
      obtain ⟨⟨g1, g2, g3, g4, g5, g6⟩, g7⟩ := hg
      obtain ⟨its, h1, h2, h3⟩ := ih g7
      by_cases hla : n = "left".toList ∧ args ≠ []
      · cases orig with
        | nil =>
          exfalso
          obtain ⟨_, ha⟩ := hla
          cases args with
          | nil => exact ha rfl
          | cons a as =>
            cases a <;> simp [printArg] at g1
        | cons c t =>
          obtain ⟨ns, h4, h5⟩ := hp t (by simp at g4; omega)
            (List.IsInfix.trans ⟨'\\' :: n ++ [c], [], by simp⟩ g2.1.1) (.inl (fun h => g2.2 (h.trans ⟨[c], [], by simp⟩)))
            (.left c g2.1.2 (by have := g2.1.1; rw [hla.1] at this; exact this))
          refine ⟨.node (.trailing n c) :: ns.map .node ++ its, ?_, ?_, by simp⟩
          · simp only [fixLeftRight, h1, leftRight, if_pos hla, h4]
          · rw [List.cons_append, itemsStr_cons, itemsStr_append, itemsStr_nodes, h5, h2,
              itemsStr_cons]
            simp only [itemStr, print_trailing, ← g1]
            simp
      · by_cases hlr : n = "left".toList ∨ n = "right".toList
        · have ha0 : args = [] := by
            rcases hlr with h | h
            · by_contra ha; exact hla ⟨h, ha⟩
            · exact g6 h
          obtain ⟨c, t, l', hl'⟩ := g5 hlr ha0
          obtain ⟨l2, hl2⟩ := h3 (c :: t) l' hl'
          by_cases hsp : isSpace c = true
          · refine ⟨.cmd n args orig :: its, ?_, by rw [itemsStr_cons, itemsStr_cons, h2], by simp⟩
            simp only [fixLeftRight, h1, leftRight, if_neg hla, if_pos hlr]
            rw [hl2]; simp [hsp]
          · refine ⟨.node (.trailing n c) :: (if t = [] then l2 else .str t :: l2), ?_, ?_, by simp⟩
            · simp only [fixLeftRight, h1, leftRight, if_neg hla, if_pos hlr]
              rw [hl2]; simp [hsp]
            · rw [itemsStr_cons, itemsStr_cons (.cmd n args orig), ← h2, hl2, itemsStr_cons]
              simp only [itemStr, print_trailing, ha0]
              split_ifs with ht
              · simp [ht]
              · rw [itemsStr_cons]; simp [itemStr]
        · refine ⟨.cmd n args orig :: its, ?_, by rw [itemsStr_cons, itemsStr_cons, h2], by simp⟩
          simp only [fixLeftRight, h1, leftRight, if_neg hla, if_neg hlr]

theorem opensBrace_spec {s : Str} (h : opensBrace s = true) :
    ∃ x ws, s = x ++ '{' :: ws ∧ Spaces ws := by
  unfold opensBrace at h
  rw [beq_iff_eq] at h
  cases hd : s.reverse.dropWhile isSpace with
  | nil => rw [hd] at h; cases h
  | cons o r =>
    rw [hd] at h
    simp only [List.head?_cons, Option.some.injEq] at h
    subst h
    obtain ⟨ws, h1, h2⟩ := dropWhile_spaces hd
    refine ⟨r.reverse, ws.reverse, ?_, fun c hc => h2 c (by simpa using hc)⟩
    have := congrArg List.reverse h1
    simpa using this

theorem asCommand_str {it : Item} {c : Node} (h : asCommand it = some c) :
    ∃ x, itemStr it = '\\' :: x := by
  cases it with
  | str s => simp [asCommand] at h
  | cmd n args orig => exact ⟨_, rfl⟩
  | node n =>
    cases n <;> simp [asCommand] at h
    · exact ⟨_, rfl⟩
    · exact ⟨_, rfl⟩

/-- Third stage: no declarations in braces, nothing happens. -/
theorem enc_spec {parse : Str → Except Err (List Node)} {txt : Str} (hplain : NoDecl txt)
    (items : List Item) (hs : itemsStr items = txt) (k : Nat) : ∀ (i : Nat), 1 ≤ i →
    ∀ todel, encLoop parse k i items todel = .ok (items, todel) := by
  induction k with
  | zero => intro i _ todel; rfl
  | succ k ih =>
    intro i hi todel
    have hstep : encStep parse i items todel = .ok (items, todel) := by
      unfold encStep
      split
      · rename_i pre c post h1 h2 h3
        rw [if_neg]
        intro hcond
        rw [Bool.and_eq_true] at hcond
        obtain ⟨x, ws, hx, hws⟩ := opensBrace_spec hcond.1
        rw [Option.bind_eq_some_iff] at h2
        obtain ⟨it, hit, hc⟩ := h2
        obtain ⟨y, hy⟩ := asCommand_str hc
        apply hplain ws hws
        have hlt : i < items.length := (List.getElem?_eq_some_iff.mp hit).1
        have e1 : items = items.take (i - 1) ++ .str pre :: it :: items.drop (i + 1) := by
          have a1 : items.drop (i - 1) = .str pre :: items.drop i := by
            have hlt' : i - 1 < items.length := by omega
            rw [List.drop_eq_getElem_cons hlt']
            have : items[i - 1] = .str pre := by
              have := (List.getElem?_eq_some_iff.mp h1).2; exact this
            rw [this, show i - 1 + 1 = i by omega]
          have a2 : items.drop i = it :: items.drop (i + 1) := by
            rw [List.drop_eq_getElem_cons hlt]
            rw [(List.getElem?_eq_some_iff.mp hit).2]
          rw [← a2, ← a1, List.take_append_drop]
        rw [← hs, e1, itemsStr_append, itemsStr_cons, itemsStr_cons, hy]
        simp only [itemStr]
        rw [hx]
        exact ⟨itemsStr (items.take (i - 1)) ++ x, y ++ itemsStr (items.drop (i + 1)), by simp⟩
      · rfl
    unfold encLoop
    rw [hstep]
    exact ih (i + 1) (by omega) todel

theorem splitLines_ne (s : Str) : splitLines s ≠ [] := by
  cases s with
  | nil => simp [splitLines]
  | cons c s =>
    unfold splitLines
    split_ifs
    · simp
    · split <;> simp

/-- Fourth stage: splitting at line ends loses nothing. -/
theorem lines_spec (s : Str) : printL (lineNodes (splitLines s)) = s := by
  induction s with
  | nil => rfl
  | cons c s ih =>
    unfold splitLines
    cases hs : splitLines s with
    | nil => exact absurd hs (splitLines_ne s)
    | cons p ps =>
      rw [hs] at ih
      split_ifs with hc
      · simp only [lineNodes]
        rw [printL_cons, printL_cons, ih, hc]; rfl
      · cases ps with
        | nil =>
          simp only [lineNodes] at ih ⊢
          rw [printL_cons] at ih ⊢
          have : p ++ printL [] = s := ih
          rw [← this]; rfl
        | cons q ps =>
          simp only [lineNodes] at ih ⊢
          rw [printL_cons] at ih ⊢
          have : p ++ printL (.newline :: lineNodes (q :: ps)) = s := ih
          rw [← this]; rfl

theorem finish_spec (items : List Item) : printL (finish items) = itemsStr items := by
  induction items with
  | nil => rfl
  | cons it l ih =>
    rw [itemsStr_cons]
    cases it with
    | str s => simp only [finish]; rw [printL_append, lines_spec, ih]; rfl
    | cmd n args orig => simp only [finish]; rw [printL_cons, ih]; rfl
    | node n => simp only [finish]; rw [printL_cons, ih]; rfl

/-! ## The property -/

theorem parse_plain (f : Nat) : ∀ txt : Str, txt.length < f → Plain txt →
    ∃ ns, parse f txt = .ok ns ∧ printL ns = txt := by
  induction f with
  | zero => intro txt h; omega
  | succ f ih =>
    intro txt hlen hplain
    have hp : ParsesBelow (parse f) txt := fun t ht hi hd _ => ih t (by omega) ⟨hplain.1.infix hi, hd, hplain.2.2.infix hi⟩
    have hsplit := envSplit_spec (txt := txt)
      (fun l m r hi hd he => by
        obtain ⟨h1, h2, h3, _⟩ := envAt_spec hplain.1 hi hd hp he
        exact ⟨h1, h2, h3⟩) txt.length txt (le_refl _) List.infix_rfl hplain.2.1
    obtain ⟨items, h1, h2, h3⟩ := first_spec hplain.1 hp (envSplit txt.length txt).1
      (envSplit txt.length txt).2 (by rw [hsplit.1]) hsplit.2.1 hsplit.2.2.1 hsplit.2.2.2
    obtain ⟨its, h4, h5, _⟩ := left_spec hp items h3
    have htxt : itemsStr its = txt := by rw [h5, h2, hsplit.1]
    refine ⟨finish its, ?_, by rw [finish_spec, htxt]⟩
    unfold parse
    simp only [h1, h4, enc_spec hplain.2.2 its htxt (its.length - 2) 1 (le_refl _) [], deleteAll]

/-- For texts without the shapes listed in `Plain` (`TeXDecl.roundtrip` allows declarations): parsing succeeds and printing the
nodes gives the text back. -/
theorem roundtrip_plain (txt : Str) (h : Plain txt) :
    ∃ ns, toNodes txt = .ok ns ∧ printL ns = txt :=
  parse_plain _ txt (by omega) h

/-! ## A test for `Plain` -/

def allTails (chk : Str → Bool) : Str → Bool
  | [] => chk []
  | c :: l => chk (c :: l) && allTails chk l

theorem allTails_at {chk : Str → Bool} (a b : Str) (h : allTails chk (a ++ b) = true) : chk b = true := by
  induction a with
  | nil =>
    cases b with
    | nil => exact h
    | cons c b => simp only [List.nil_append, allTails, Bool.and_eq_true] at h; exact h.1
  | cons x a ih =>
    simp only [List.cons_append, allTails, Bool.and_eq_true] at h
    exact ih h.2

def opener (o : Char) : Bool := o == '{' || o == '['

/-- Does the text begin with white space followed by a character of the kind? -/
def spacesThen (p : Char → Bool) (l : Str) : Bool :=
  match l.dropWhile isSpace with
  | [] => false
  | c :: _ => p c

/-- No closing character `ot` followed by white space and an opening character. -/
def noSplit (ot : Char) (v : Str) : Bool :=
  allTails (fun t => match t with
    | [] => true
    | c :: w => !(c == ot && spacesThen opener w)) v

def argBefore (p : Char) : Bool := isWord p || p == '*' || p == '}' || p == ']'

/-- No declaration at this position. -/
def noDeclHere (t : Str) : Bool :=
  match t with
  | [] => true
  | c :: l => !(c == '{' && spacesThen (· == '\\') l)

/-- The conditions of `Basic` on the text from one position on. -/
def basicHere (t : Str) : Bool :=
  (match t with
    | p :: o :: l =>
      !(argBefore p && o == '{' && !noSplit ']' (l.takeWhile (· != '}'))) &&
      !(argBefore p && o == '[' && !noSplit '}' (l.takeWhile (· != ']')))
    | _ => true) &&
  !(("\\begin{".toList).isPrefixOf t && (findSub "\\end".toList ((t.drop 7).takeWhile (· != '}'))).isSome) &&
  !(("\\left\\".toList).isPrefixOf t && ((t.drop 6).head?.map isWord == some true)) &&
  !(("\\right\\".toList).isPrefixOf t && ((t.drop 7).head?.map isWord == some true)) &&
  !(("\\right".toList).isPrefixOf t && ((t.drop 6).head?.map opener == some true))

theorem spacesThen_of {p : Char → Bool} {ws : Str} {o : Char} {r : Str} (hws : Spaces ws)
    (hs : isSpace o = false) (hp : p o = true) : spacesThen p (ws ++ o :: r) = true := by
  unfold spacesThen
  have : (ws ++ o :: r).dropWhile isSpace = o :: r := by
    rw [List.dropWhile_append_of_pos (fun c hc => hws c hc)]
    simp [List.dropWhile, hs]
  rw [this]; exact hp

theorem takeWhile_ne {c : Char} {u r : Str} (h : c ∉ u) :
    (u ++ r).takeWhile (· != c) = u ++ r.takeWhile (· != c) := by
  apply List.takeWhile_append_of_pos
  intro x hx
  simp only [bne_iff_ne, ne_eq]
  rintro rfl
  exact h hx

/-- A test for `Maths` (fuel: the length of the text). -/
def mathsB : Nat → Str → Bool
  | _, [] => true
  | 0, _ :: _ => false
  | f + 1, c :: l =>
    if c ≠ '$' then mathsB f l
    else match l with
      | '$' :: l' =>
        match upToDollar l' with
        | some (_, '$' :: r) => mathsB f r
        | _ => false
      | l =>
        match upToDollar l with
        | some (_, r) => decide (r.head? ≠ some '$') && mathsB f r
        | none => false

/-- The condition on the environment that begins the text. -/
def envMathsB (t : Str) : Bool :=
  if ("\\begin{".toList).isPrefixOf t then
    let N := (t.drop 7).takeWhile (· != '}')
    match findSub (endTag N) ((t.drop 7).drop (N.length + 1)) with
    | none => true
    | some (C, _) => decide ('$' ∉ N) && mathsB C.length C
  else true

def dollarsB (t : Str) : Bool :=
  allTails (fun s => !(['$', '$'].isPrefixOf s)) t || (mathsB t.length t && allTails envMathsB t)

def basicB (t : Str) : Bool := allTails basicHere t

def plainB (t : Str) : Bool := (basicB t && dollarsB t) && allTails noDeclHere t

theorem mathsB_sound (f : Nat) : ∀ t, mathsB f t = true → Maths t := by
  induction f with
  | zero =>
    intro t h
    cases t with
    | nil => exact .nil
    | cons c l => simp [mathsB] at h
  | succ f ih =>
    intro t h
    cases t with
    | nil => exact .nil
    | cons c l =>
      unfold mathsB at h
      split_ifs at h with hc
      · exact .char c l hc (ih l h)
      · have hc : c = '$' := by simpa using hc
        subst hc
        split at h
        · rename_i l'
          split at h
          · rename_i u r hu
            obtain ⟨rfl, h1⟩ := upToDollar_spec hu
            have := Maths.display u r h1 (ih r h)
            simpa using this
          · cases h
        · rename_i hne
          split at h
          · rename_i u r hu
            obtain ⟨rfl, h1⟩ := upToDollar_spec hu
            rw [Bool.and_eq_true, decide_eq_true_eq] at h
            refine .inline u r h1 ?_ h.1 (ih r h.2)
            rintro rfl
            exact hne r rfl
          · cases h

theorem first_le {p b a b' a' : Str} (h : b ++ p ++ a = b' ++ p ++ a') (hp : p ≠ []) (hf : ¬ p <:+: b ++ p.dropLast) : b.length ≤ b'.length := by
  by_contra hlt
  apply hf
  have h0 : 0 < p.length := List.length_pos_iff.2 hp
  have e1 : b ++ p.dropLast = (b ++ p ++ a).take (b.length + (p.length - 1)) := by
    rw [List.append_assoc, List.take_append, List.take_of_length_le (by omega), List.dropLast_eq_take]
    simp [List.take_append]
  have e2 : b' ++ p = (b ++ p ++ a).take (b'.length + p.length) := by
    rw [h, List.take_left' (by simp)]
  have : (b' ++ p) <+: (b ++ p.dropLast) := by
    rw [e1, e2]
    exact List.take_prefix_take_left (by omega)
  exact (List.suffix_append b' p).isInfix.trans this.isInfix

theorem dollarsB_sound {t : Str} (h : dollarsB t = true) : DollarsOk t := by
  unfold dollarsB at h
  rw [Bool.or_eq_true] at h
  rcases h with h | h
  · left
    rintro ⟨a, b, rfl⟩
    rw [List.append_assoc] at h
    have := allTails_at _ _ h
    simp at this
  · right
    rw [Bool.and_eq_true] at h
    refine ⟨mathsB_sound _ _ h.1, ?_⟩
    rintro N C hN ⟨a, b, e⟩ hf
    have h2 := h.2
    rw [← e, List.append_assoc] at h2
    have h3 := allTails_at _ _ h2
    unfold envMathsB at h3
    have ed : ("\\begin{".toList ++ N ++ ['}'] ++ C ++ endTag N ++ b).drop 7 = N ++ '}' :: (C ++ endTag N ++ b) := by simp
    have et : (N ++ '}' :: (C ++ endTag N ++ b)).takeWhile (· != '}') = N := by
      rw [takeWhile_ne hN]
      simp
    have er : (N ++ '}' :: (C ++ endTag N ++ b)).drop (N.length + 1) = C ++ endTag N ++ b := by
      rw [← List.drop_drop, List.drop_left']
      · rfl
      · rfl
    rw [if_pos (by rw [List.isPrefixOf_iff_prefix]; exact ⟨N ++ ['}'] ++ C ++ endTag N ++ b, by simp⟩)] at h3
    simp only [ed, et, er] at h3
    split at h3
    · rename_i hn
      exact absurd ⟨C, b, rfl⟩ (findSub_none hn)
    · rename_i C' r' hs
      have e1 := findSub_spec hs
      have hp : endTag N ≠ [] := by simp [endTag]
      have l1 := first_le e1 hp hf
      have l2 := first_le e1.symm hp (findSub_first hs hp)
      have hC : C = C' := by
        rw [List.append_assoc, List.append_assoc] at e1
        exact (List.append_inj e1 (by omega)).1
      subst hC
      rw [Bool.and_eq_true, decide_eq_true_eq] at h3
      exact ⟨h3.1, mathsB_sound _ _ h3.2⟩


theorem opener_iff {o : Char} : opener o = true ↔ Opener o := by
  simp [opener, Opener]

theorem noSplit_mixed {ot cl : Char} {u ws r : Str} {o : Char} (hcl : cl ∉ u)
    (hne : ot ≠ cl) (hws : Spaces ws) (hclw : isSpace cl = false) (ho : Opener o) (hocl : o ≠ cl) :
    noSplit ot ((u ++ ot :: ws ++ o :: r).takeWhile (· != cl)) = false := by
  have hw : cl ∉ ws := fun hm => by rw [hws cl hm] at hclw; cases hclw
  have e : (u ++ ot :: ws ++ o :: r).takeWhile (· != cl) =
      u ++ ot :: (ws ++ o :: r.takeWhile (· != cl)) := by
    rw [List.append_assoc, takeWhile_ne hcl, List.cons_append, List.takeWhile_cons_of_pos (by simpa using hne),
      takeWhile_ne hw, List.takeWhile_cons_of_pos (by simpa using hocl)]
  rw [e]
  by_contra hcon
  rw [Bool.not_eq_false] at hcon
  have := allTails_at _ _ hcon
  simp only [beq_self_eq_true, Bool.true_and, Bool.not_eq_true'] at this
  have h2 := spacesThen_of (p := opener) (r := r.takeWhile (· != cl)) hws
    (by rcases ho with rfl | rfl <;> decide) (opener_iff.mpr ho)
  rw [h2] at this
  cases this

theorem basicB_sound {t : Str} (h : basicB t = true) : Basic t := by
  have key : ∀ s, s <:+: t → ∃ r, basicHere (s ++ r) = true := by
    rintro s ⟨a, b, rfl⟩
    unfold basicB at h
    rw [List.append_assoc] at h
    exact ⟨b, allTails_at _ _ h⟩
  refine ⟨?_, ?_, ?_, ?_, ?_, ?_⟩
  · intro p u ws o hp hu hws ho hi
    obtain ⟨r, hr⟩ := key _ hi
    simp only [basicHere, Bool.and_eq_true, Bool.not_eq_true'] at hr
    have hh := hr.1.1.1.1
    have hb : argBefore p = true := by
      rcases hp with h | h | h | h <;> simp [argBefore, h]
    have e : (p :: '{' :: u ++ ']' :: ws ++ [o] ++ r) = p :: '{' :: (u ++ ']' :: ws ++ o :: r) := by simp
    rw [e] at hh
    simp only [hb, beq_self_eq_true, Bool.true_and, Bool.and_eq_true, Bool.not_eq_true'] at hh
    have h1 := hh.1
    rw [noSplit_mixed hu (by decide) hws (by decide) ho (by rcases ho with rfl | rfl <;> decide)] at h1
    cases h1
  · intro p u ws o hp hu hws ho hi
    obtain ⟨r, hr⟩ := key _ hi
    simp only [basicHere, Bool.and_eq_true, Bool.not_eq_true'] at hr
    have hh := hr.1.1.1.1
    have hb : argBefore p = true := by
      rcases hp with h | h | h | h <;> simp [argBefore, h]
    have e : (p :: '[' :: u ++ '}' :: ws ++ [o] ++ r) = p :: '[' :: (u ++ '}' :: ws ++ o :: r) := by simp
    rw [e] at hh
    simp only [hb, beq_self_eq_true, Bool.true_and, Bool.and_eq_true, Bool.not_eq_true'] at hh
    have h1 := hh.2
    rw [noSplit_mixed hu (by decide) hws (by decide) ho (by rcases ho with rfl | rfl <;> decide)] at h1
    cases h1
  · intro u hu hi
    obtain ⟨r, hr⟩ := key _ hi
    simp only [basicHere, Bool.and_eq_true, Bool.not_eq_true'] at hr
    have hh := hr.1.1.1.2
    have e : "\\begin{".toList ++ u ++ "\\end".toList ++ r = "\\begin{".toList ++ (u ++ "\\end".toList ++ r) := by
      simp
    rw [e] at hh
    have hpre : ("\\begin{".toList).isPrefixOf ("\\begin{".toList ++ (u ++ "\\end".toList ++ r)) = true := by
      rw [List.isPrefixOf_iff_prefix]; exact List.prefix_append _ _
    rw [hpre, Bool.true_and] at hh
    have hd : ("\\begin{".toList ++ (u ++ "\\end".toList ++ r)).drop 7 = u ++ "\\end".toList ++ r := rfl
    rw [hd, List.append_assoc, takeWhile_ne hu] at hh
    have h2 : (("\\end".toList ++ r).takeWhile (· != '}')) = "\\end".toList ++ r.takeWhile (· != '}') :=
      takeWhile_ne (by decide)
    rw [h2] at hh
    cases hf : findSub "\\end".toList (u ++ ("\\end".toList ++ r.takeWhile (· != '}'))) with
    | some q => rw [hf] at hh; cases hh
    | none => exact findSub_none hf ⟨u, r.takeWhile (· != '}'), by simp⟩
  · intro w hw hi
    obtain ⟨r, hr⟩ := key _ hi
    simp only [basicHere, Bool.and_eq_true, Bool.not_eq_true'] at hr
    have hh := hr.1.1.2
    simp [hw] at hh
  · intro w hw hi
    obtain ⟨r, hr⟩ := key _ hi
    simp only [basicHere, Bool.and_eq_true, Bool.not_eq_true'] at hr
    have hh := hr.1.2
    simp [hw] at hh
  · intro o ho hi
    obtain ⟨r, hr⟩ := key _ hi
    simp only [basicHere, Bool.and_eq_true, Bool.not_eq_true'] at hr
    have hh := hr.2
    have := opener_iff.mpr ho
    simp [this] at hh

theorem plainB_sound {t : Str} (h : plainB t = true) : Plain t := by
  unfold plainB at h
  rw [Bool.and_eq_true, Bool.and_eq_true] at h
  obtain ⟨⟨hb, hd⟩, h⟩ := h
  refine ⟨basicB_sound hb, dollarsB_sound hd, ?_⟩
  rintro ws hws ⟨a, b, rfl⟩
  rw [List.append_assoc] at h
  have := allTails_at _ _ h
  simp only [noDeclHere, List.cons_append, List.append_assoc, beq_self_eq_true, Bool.true_and] at this
  rw [spacesThen_of hws (by decide) (by decide)] at this
  cases this

/-- Non-vacuity: a document with a starred command, optional and required arguments, nested and
unfinished environments, mathematics with sized brackets, lines and stray characters is plain. -/
def sample : Str := ("\\documentclass[12pt]{article}\n\\section*{A {B} c} see $\\left(x\\right)+\\frac{a}{b}$ and\n" ++
  "$$y=\\alpha$$ $\\begin{c}0\\end{c}$" ++
  "\\begin{a}\\begin{b}x\\end{b} $$z$$ \\item[q] {z}\\end{a} \\begin{open} 50\\% ] } \\alpha").toList

theorem sample_plain : Plain sample := plainB_sound (by decide +kernel)

example : ∃ ns, toNodes sample = .ok ns ∧ printL ns = sample := roundtrip_plain sample sample_plain

/-! ## Counterexamples: every condition of `Plain` is needed -/

/-- What comes out of parsing and printing a text. -/
def reprint (s : String) : Except Err Str :=
  match toNodes s.toList with
  | .error e => .error e
  | .ok ns => .ok (printL ns)

/-- Nested declarations: the inner command is printed a second time after the outer group. -/
theorem nested_declaration_duplicated :
    reprint "{\\bf x {\\it y} z}" = .ok "{\\bf x {\\it y} z}\\it".toList := by decide +kernel

/-- A declaration whose braces do not balance: text is lost. -/
theorem unbalanced_declaration_loses_text :
    reprint "{\\bf a { b \\foo c }" = .ok "{\\bf\\foo c }".toList := by decide +kernel

/-- ... or a brace is added. -/
theorem open_declaration_closed :
    reprint "{\\bf a {" = .ok "{\\bf a {}".toList := by decide +kernel

/-- Empty mathematics becomes display mathematics; display mathematics closed by one `$` loses its
content. -/
theorem dollars_changed :
    reprint "a$$b" = .ok "a$$$$b".toList ∧ reprint "$$x$" = .ok "$$$$".toList := by decide +kernel

/-- An optional argument that contains a command with two arguments gets its brackets mixed up. -/
theorem optional_argument_scrambled :
    reprint "\\sqrt[\\frac{1}{2}]{x}" = .ok "\\sqrt[\\frac{1]{2}}{x}".toList := by decide +kernel

/-- ... or parsing fails. -/
theorem mixed_argument_raises : reprint "\\foo{a] [b}" = .error .valueError := by decide +kernel

/-- A delimiter command after `\left` or `\right` makes parsing fail (IndexError). -/
theorem left_command_raises :
    reprint "$\\left\\langle x \\right\\rangle$" = .error .indexError := by decide +kernel

/-- `\right[` may swallow text. -/
theorem right_bracket_loses_text :
    reprint "\\right[a]b" = .ok "\\rightb".toList := by decide +kernel

/-- A simple declaration is handled. -/
theorem simple_declaration :
    reprint "so {\\bf very} nice" = .ok "so {\\bf very} nice".toList := by decide +kernel

end Verif.TeX
