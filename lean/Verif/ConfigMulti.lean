import Mathlib.Data.List.Basic
import Mathlib.Tactic.SplitIfs
import Mathlib.Tactic.Linarith

/-!
# Values over several lines (astropysics/external/configobj.py 80-81, 1168-1176, 1540-1660, 1828-1837, 1887-1918) (C189)

A value with a line break or with both kinds of quotes is written between triple quotes; `_multiline` reads it back from the lines of the file.  Text without carriage
returns; the part of the first line after `key = ` is the beginning of the value (ConfigFile.lean).
-/

namespace Verif.ConfigMulti

abbrev Str := List Char

/-- White space of regular expressions. -/
def isSpace (c : Char) : Bool := c = ' ' || c = '\t' || c = '\x0b' || c = '\x0c' || c = '\n' || c = '\r'

/-- `x.find(quot) != -1`. -/
def has (quot : Str) : Str → Bool
  | [] => quot = []
  | c :: t => quot.isPrefixOf (c :: t) || has quot t

/-- A triple quote. -/
def three (q : Char) : Str := [q, q, q]

inductive Err
  /-- ConfigObjError: cannot be safely quoted -/
  | refused
  /-- a parse error -/
  | parse
  deriving DecidableEq

/-- `_get_triple_quote`, configobj.py 1828-1837, with lines 80-81: `tdquot` are three single quotes, `tsquot` three double ones. -/
def tripleQuote (v : Str) : Except Err Char :=
  if has (three '"') v && has (three '\'') v then .error .refused
  else if !has (three '"') v then .ok '\''
  else .ok '"'

/-- `need_triple` of `_quote(value, multiline=True)`, configobj.py 1790. -/
def needTriple (v : Str) : Bool := ('\'' ∈ v && '"' ∈ v) || '\n' ∈ v

/-- What `_quote` gives for a value that needs triple quotes, configobj.py 1809-1815. -/
def quoted (v : Str) : Except Err Str :=
  match tripleQuote v with
  | .error e => .error e
  | .ok q => .ok (three q ++ v ++ three q)

/-- The end of the regular expressions: `\s*(#.*)?$`, with the comment. -/
def tail : Str → Option (Option Str)
  | [] => some none
  | c :: t => if isSpace c then tail t else if c = '#' then some (some (c :: t)) else none

/-- `(.*?)'''\s*(#.*)?$`, configobj.py 1170-1171: the shortest text. -/
def lazyEnd (q : Char) : Str → Option (Str × Option Str)
  | [] => none
  | c :: t =>
    match (if (three q).isPrefixOf (c :: t) then tail ((c :: t).drop 3) else none) with
    | some com => some ([], com)
    | none => match lazyEnd q t with
      | some (g, com) => some (c :: g, com)
      | none => none

/-- `^'''(.*?)'''\s*(#.*)?$`, configobj.py 1168-1169, for a value that begins with the quotes. -/
def single (q : Char) (value : Str) : Option (Str × Option Str) := lazyEnd q (value.drop 3)

/-- The loop of `_multiline`, configobj.py 1901-1918. -/
def loop (q : Char) (acc : Str) : List Str → Except Err (Str × Option Str × List Str)
  | [] => .error .parse
  | line :: rest =>
    if has (three q) line then
      match lazyEnd q line with
      | none => .error .parse
      | some (g, com) => .ok (acc ++ '\n' :: g, com, rest)
    else loop q (acc ++ '\n' :: line) rest

/-- `_multiline`, configobj.py 1887-1918: value, comment and the lines after it. -/
def multiline (value : Str) (rest : List Str) : Except Err (Str × Option Str × List Str) :=
  match value with
  | [] => .error .parse
  | q :: _ =>
    match single q value with
    | some (g, com) => .ok (g, com, rest)
    | none => if has (three q) (value.drop 3) then .error .parse else loop q (value.drop 3) rest

/-- The lines of a text. -/
def lines : Str → List Str
  | [] => [[]]
  | c :: t => if c = '\n' then [] :: lines t else
    match lines t with
    | [] => [[c]]
    | l :: ls => (c :: l) :: ls

/-- Reading a text that begins the value, with other lines of the file after it. -/
def readBack (text : Str) (rest : List Str) : Except Err (Str × Option Str × List Str) :=
  match lines text with
  | [] => .error .parse
  | l :: ls => multiline l (ls ++ rest)

/-! ## Specification -/

/-- Somewhere in the text. -/
def Inside (quot v : Str) : Prop := ∃ a b, v = a ++ quot ++ b

/-- White space and then a comment. -/
def Comment (b : Str) : Prop := ∃ ws r, b = ws ++ '#' :: r ∧ ∀ c ∈ ws, isSpace c = true

/-- A text that reads as the end of the value: quotes, white space, comment. -/
def Ends (q : Char) (l : Str) : Prop := ∃ a b, l = a ++ three q ++ b ∧ Comment b

/-- The rest of the last line: nothing, white space or a comment. -/
def Rest (com : Str) : Prop := '\n' ∉ com ∧ ((∀ c ∈ com, isSpace c = true) ∨ Comment com)

/-! ## Proofs -/

theorem has_iff (quot : Str) (hq : quot ≠ []) : ∀ v, has quot v = true ↔ Inside quot v
  | [] => by
    simp only [has, decide_eq_true_eq, hq, false_iff]
    rintro ⟨a, b, h⟩
    have := congrArg List.length h
    simp only [List.length_nil, List.length_append] at this
    exact hq (List.length_eq_zero_iff.1 (by omega))
  | c :: t => by
    rw [has, Bool.or_eq_true, has_iff quot hq t]
    constructor
    · rintro (h | ⟨a, b, h⟩)
      · obtain ⟨b, hb⟩ := List.isPrefixOf_iff_prefix.1 h
        exact ⟨[], b, by simpa using hb.symm⟩
      · exact ⟨c :: a, b, by rw [h]; simp⟩
    · rintro ⟨a, b, h⟩
      cases a with
      | nil => left; exact List.isPrefixOf_iff_prefix.2 ⟨b, by simpa using h.symm⟩
      | cons x a =>
        right
        simp only [List.cons_append, List.cons.injEq] at h
        exact ⟨a, b, h.2⟩

theorem tail_spaces : ∀ (ws r : Str), (∀ c ∈ ws, isSpace c = true) → tail (ws ++ r) = tail r
  | [], r, _ => rfl
  | c :: ws, r, h => by
    rw [List.cons_append, tail, if_pos (h c (by simp))]
    exact tail_spaces ws r fun x hx => h x (by simp [hx])

theorem tail_iff : ∀ (s : Str), (∃ c, tail s = some c) ↔ (∀ c ∈ s, isSpace c = true) ∨ Comment s
  | [] => by simp [tail]
  | c :: t => by
    rw [tail]
    by_cases hc : isSpace c = true
    · rw [if_pos hc, tail_iff t]
      constructor
      · rintro (h | ⟨ws, r, e, h⟩)
        · left; intro x hx; rcases List.mem_cons.1 hx with rfl | hx
          · exact hc
          · exact h x hx
        · right; exact ⟨c :: ws, r, by rw [e]; rfl, fun x hx => by
            rcases List.mem_cons.1 hx with rfl | hx
            · exact hc
            · exact h x hx⟩
      · rintro (h | ⟨ws, r, e, h⟩)
        · left; exact fun x hx => h x (by simp [hx])
        · right
          cases ws with
          | nil =>
            simp only [List.nil_append, List.cons.injEq] at e
            rw [e.1] at hc; exact absurd hc (by decide)
          | cons w ws =>
            simp only [List.cons_append, List.cons.injEq] at e
            exact ⟨ws, r, e.2, fun x hx => h x (by simp [hx])⟩
    · rw [if_neg hc]
      by_cases hh : c = '#'
      · rw [if_pos hh]
        simp only [Option.some.injEq, exists_eq', true_iff]
        right; exact ⟨[], t, by rw [hh]; rfl, by simp⟩
      · rw [if_neg hh]
        simp only [reduceCtorEq, exists_false, false_iff, not_or]
        refine ⟨fun h => hc (h c (by simp)), ?_⟩
        rintro ⟨ws, r, e, h⟩
        cases ws with
        | nil => simp only [List.nil_append, List.cons.injEq] at e; exact hh e.1
        | cons w ws =>
          simp only [List.cons_append, List.cons.injEq] at e
          exact hc (by rw [e.1]; exact h w (by simp))

/-- A quote is no end. -/
def IsQuote (q : Char) : Prop := q = '\'' ∨ q = '"'

theorem tail_quote (q : Char) (hq : IsQuote q) (t : Str) : tail (q :: t) = none := by
  rcases hq with rfl | rfl <;> simp [tail, isSpace]

theorem tail_inner (q : Char) (hq : IsQuote q) : ∀ (b com : Str), (∃ c, tail (b ++ (three q ++ com)) = some c) → Comment b
  | [], com, ⟨c, h⟩ => by
    rw [List.nil_append] at h
    have : three q ++ com = q :: (q :: q :: com) := rfl
    rw [this, tail_quote q hq] at h
    simp at h
  | x :: b, com, ⟨c, h⟩ => by
    rw [List.cons_append, tail] at h
    by_cases hx : isSpace x = true
    · rw [if_pos hx] at h
      obtain ⟨ws, r, e, hw⟩ := tail_inner q hq b com ⟨c, h⟩
      exact ⟨x :: ws, r, by rw [e]; rfl, fun y hy => by
        rcases List.mem_cons.1 hy with rfl | hy
        · exact hx
        · exact hw y hy⟩
    · rw [if_neg hx] at h
      by_cases hh : x = '#'
      · exact ⟨[], b, by rw [hh]; rfl, by simp⟩
      · rw [if_neg hh] at h; simp at h

theorem tail_of_comment (b s : Str) (h : Comment b) : ∃ c, tail (b ++ s) = some c := by
  obtain ⟨ws, r, rfl, hw⟩ := h
  rw [List.append_assoc, tail_spaces ws _ hw, List.cons_append, tail]
  exact ⟨_, by rw [if_neg (by decide), if_pos rfl]⟩

/-- The first step of the lazy match on a text before the closing quotes. -/
theorem front (q : Char) (hq : IsQuote q) (x : Char) (t com : Str) :
    (∃ c, (if (three q).isPrefixOf (x :: t ++ (three q ++ com)) then tail ((x :: t ++ (three q ++ com)).drop 3) else none) = some c) ↔
      ∃ b, x :: t = three q ++ b ∧ Comment b := by
  constructor
  · rintro ⟨c, h⟩
    by_cases hp : (three q).isPrefixOf (x :: t ++ (three q ++ com)) = true
    · rw [if_pos hp] at h
      obtain ⟨r, hr⟩ := List.isPrefixOf_iff_prefix.1 hp
      match t, h, hr with
      | [], h, hr =>
        have : ([x] ++ (three q ++ com)).drop 3 = q :: com := rfl
        rw [this, tail_quote q hq] at h; simp at h
      | [y], h, hr =>
        have : ([x, y] ++ (three q ++ com)).drop 3 = q :: (q :: com) := rfl
        rw [this, tail_quote q hq] at h; simp at h
      | y :: z :: b, h, hr =>
        have e : (x :: y :: z :: b ++ (three q ++ com)).drop 3 = b ++ (three q ++ com) := rfl
        rw [e] at h
        refine ⟨b, ?_, tail_inner q hq b com ⟨c, h⟩⟩
        simp only [three, List.cons_append, List.nil_append, List.cons.injEq] at hr
        obtain ⟨h1, h2, h3, _⟩ := hr
        simp [three, ← h1, ← h2, ← h3]
    · rw [if_neg hp] at h; simp at h
  · rintro ⟨b, hb, hc⟩
    have e : x :: t ++ (three q ++ com) = three q ++ (b ++ (three q ++ com)) := by rw [hb]; simp
    rw [e, if_pos (List.isPrefixOf_iff_prefix.2 ⟨_, rfl⟩)]
    exact tail_of_comment b _ hc

/-- The lazy match on text, quotes and the rest of the line: the whole text exactly if the text has no end in it, otherwise a shorter one. -/
theorem lazy_exact (q : Char) (hq : IsQuote q) (com : Str) (c : Option Str) (hc : tail com = some c) : ∀ l : Str,
    (¬ Ends q l → lazyEnd q (l ++ (three q ++ com)) = some (l, c)) ∧
    (Ends q l → ∃ g c', lazyEnd q (l ++ (three q ++ com)) = some (g, c') ∧ g.length < l.length)
  | [] => by
    constructor
    · intro _
      have : ([] : Str) ++ (three q ++ com) = q :: (q :: q :: com) := rfl
      rw [this, lazyEnd]
      have hp : (three q).isPrefixOf (q :: (q :: q :: com)) = true := List.isPrefixOf_iff_prefix.2 ⟨com, rfl⟩
      rw [if_pos hp]
      show (match tail com with | some com => some ([], com) | none => _) = _
      rw [hc]
    · rintro ⟨a, b, h, _⟩
      have := congrArg List.length h
      simp [three] at this
  | x :: t => by
    have ih := lazy_exact q hq com c hc t
    have hf := front q hq x t com
    have hE : Ends q (x :: t) ↔ (∃ b, x :: t = three q ++ b ∧ Comment b) ∨ Ends q t := by
      constructor
      · rintro ⟨a, b, h, hb⟩
        cases a with
        | nil => left; exact ⟨b, by simpa using h, hb⟩
        | cons y a =>
          right
          simp only [List.cons_append, List.cons.injEq] at h
          exact ⟨a, b, h.2, hb⟩
      · rintro (⟨b, h, hb⟩ | ⟨a, b, h, hb⟩)
        · exact ⟨[], b, by simpa using h, hb⟩
        · exact ⟨x :: a, b, by rw [h]; simp, hb⟩
    rw [List.cons_append] at hf ⊢
    rw [lazyEnd]
    cases hm : (if (three q).isPrefixOf (x :: (t ++ (three q ++ com))) = true then tail ((x :: (t ++ (three q ++ com))).drop 3) else none) with
    | some c' =>
      have hb := hf.1 ⟨c', hm⟩
      exact ⟨fun h => absurd (hE.2 (Or.inl hb)) h, fun _ => ⟨[], c', rfl, by simp⟩⟩
    | none =>
      have hb : ¬ ∃ b, x :: t = three q ++ b ∧ Comment b := by
        intro h
        obtain ⟨c', h'⟩ := hf.2 h
        rw [hm] at h'; simp at h'
      dsimp only
      constructor
      · intro h
        rw [ih.1 fun h' => h (hE.2 (Or.inr h'))]
      · intro h
        rcases hE.1 h with h | h
        · exact absurd h hb
        · obtain ⟨g, c', e, hl⟩ := ih.2 h
          exact ⟨x :: g, c', by rw [e], by simpa using hl⟩

theorem lines_ne (s : Str) : lines s ≠ [] := by
  cases s with
  | nil => simp [lines]
  | cons c t => rw [lines]; split_ifs; · simp
                split <;> simp

theorem lines_no : ∀ s : Str, '\n' ∉ s → lines s = [s]
  | [], _ => rfl
  | c :: t, h => by
    simp only [List.mem_cons, not_or] at h
    rw [lines, if_neg (fun e => h.1 e.symm), lines_no t h.2]

/-- Text joined of lines. -/
def joinLines : List Str → Str
  | [] => []
  | [l] => l
  | l :: m :: ls => l ++ '\n' :: joinLines (m :: ls)

theorem joinLines_cons (l : Str) (ls : List Str) (h : ls ≠ []) : joinLines (l :: ls) = l ++ '\n' :: joinLines ls := by
  cases ls with
  | nil => exact absurd rfl h
  | cons m ls => rfl

theorem join_lines : ∀ s : Str, joinLines (lines s) = s
  | [] => rfl
  | c :: t => by
    rw [lines]
    by_cases hc : c = '\n'
    · rw [if_pos hc, joinLines_cons _ _ (lines_ne t), join_lines t, hc]; rfl
    · rw [if_neg hc]
      have ih := join_lines t
      cases hl : lines t with
      | nil => exact absurd hl (lines_ne t)
      | cons l ls =>
        rw [hl] at ih
        dsimp only
        cases ls with
        | nil => simp only [joinLines] at ih ⊢; rw [ih]
        | cons m ls => rw [joinLines_cons _ _ (by simp)] at ih ⊢; rw [← ih]; rfl

theorem lines_mem_no (s : Str) : ∀ l ∈ lines s, '\n' ∉ l := by
  induction s with
  | nil => simp [lines]
  | cons c t ih =>
    rw [lines]
    by_cases hc : c = '\n'
    · rw [if_pos hc]
      intro l hl
      rcases List.mem_cons.1 hl with rfl | hl
      · simp
      · exact ih l hl
    · rw [if_neg hc]
      cases ht : lines t with
      | nil => exact absurd ht (lines_ne t)
      | cons m ls =>
        rw [ht] at ih
        intro l hl
        rcases List.mem_cons.1 hl with rfl | hl
        · simp only [List.mem_cons, not_or]
          exact ⟨fun e => hc e.symm, ih m (by simp)⟩
        · exact ih l (by simp [hl])

theorem lines_split (l : Str) (hl : '\n' ∉ l) (s : Str) : lines (l ++ '\n' :: s) = l :: lines s := by
  induction l with
  | nil => rw [List.nil_append, lines, if_pos rfl]
  | cons c t ih =>
    simp only [List.mem_cons, not_or] at hl
    rw [List.cons_append, lines, if_neg (fun e => hl.1 e.symm), ih hl.2]

theorem joinLines_append (com : Str) : ∀ (ls : List Str) (l : Str), joinLines (ls ++ [l]) ++ com = joinLines (ls ++ [l ++ com])
  | [], l => rfl
  | m :: ls, l => by
    rw [List.cons_append, List.cons_append, joinLines_cons _ _ (by simp), joinLines_cons _ _ (by simp), ← joinLines_append com ls l]
    simp

theorem lines_join : ∀ ls : List Str, ls ≠ [] → (∀ l ∈ ls, '\n' ∉ l) → lines (joinLines ls) = ls
  | [], h, _ => absurd rfl h
  | [l], _, h => lines_no l (h l (by simp))
  | l :: m :: ls, _, h => by
    rw [joinLines_cons _ _ (by simp), lines_split _ (h l (by simp)), lines_join (m :: ls) (by simp) fun x hx => h x (by simp [hx])]

theorem count_join : ∀ ls : List Str, ls ≠ [] → (∀ l ∈ ls, '\n' ∉ l) → (joinLines ls).count '\n' + 1 = ls.length
  | [], h, _ => absurd rfl h
  | [l], _, h => by rw [joinLines, List.count_eq_zero.2 (h l (by simp))]; rfl
  | l :: m :: ls, _, h => by
    rw [joinLines_cons _ _ (by simp), List.count_append, List.count_cons_self, List.count_eq_zero.2 (h l (by simp))]
    have := count_join (m :: ls) (by simp) fun x hx => h x (by simp [hx])
    simp only [List.length_cons] at this ⊢
    omega

theorem lazy_count (q : Char) : ∀ (s g : Str) (c : Option Str), lazyEnd q s = some (g, c) → ∃ r, s = g ++ r
  | [], g, c, h => by simp [lazyEnd] at h
  | x :: t, g, c, h => by
    rw [lazyEnd] at h
    split at h
    · simp only [Option.some.injEq, Prod.mk.injEq] at h
      exact ⟨x :: t, by rw [← h.1]; rfl⟩
    · cases ht : lazyEnd q t with
      | none => rw [ht] at h; simp at h
      | some p =>
        obtain ⟨g', c'⟩ := p
        rw [ht] at h
        simp only [Option.some.injEq, Prod.mk.injEq] at h
        obtain ⟨r, hr⟩ := lazy_count q t g' c' ht
        exact ⟨r, by rw [← h.1, hr]; rfl⟩

/-- The loop on lines `ls` and the last line, after the text `acc`. -/
theorem loop_exact (q : Char) (hq : IsQuote q) (com : Str) (c : Option Str) (hc : tail com = some c) (rest : List Str) (l : Str) :
    ∀ (ls : List Str) (acc : Str), (∀ x ∈ ls, '\n' ∉ x) →
      ((∃ c', loop q acc (ls ++ (l ++ (three q ++ com)) :: rest) = .ok (acc ++ '\n' :: joinLines (ls ++ [l]), c', rest)) →
        (∀ x ∈ ls, ¬ Inside (three q) x) ∧ ¬ Ends q l) ∧
      ((∀ x ∈ ls, ¬ Inside (three q) x) ∧ ¬ Ends q l → loop q acc (ls ++ (l ++ (three q ++ com)) :: rest) = .ok (acc ++ '\n' :: joinLines (ls ++ [l]), c, rest))
  | [], acc, _ => by
    have hh : has (three q) (l ++ (three q ++ com)) = true := (has_iff _ (by simp [three]) _).2 ⟨l, com, by simp⟩
    rw [List.nil_append, loop, if_pos hh]
    have he := lazy_exact q hq com c hc l
    by_cases hE : Ends q l
    · obtain ⟨g, c', e, hlt⟩ := he.2 hE
      rw [e]
      simp only [Except.ok.injEq, Prod.mk.injEq, List.nil_append, joinLines, List.append_cancel_left_eq, List.cons.injEq, true_and]
      constructor
      · rintro ⟨_, rfl, _⟩; omega
      · rintro ⟨_, h⟩; exact absurd hE h
    · rw [he.1 hE]
      simp [joinLines, hE]
  | x :: ls, acc, h => by
    have hx : '\n' ∉ x := h x (by simp)
    rw [List.cons_append, loop]
    by_cases hi : has (three q) x = true
    · rw [if_pos hi]
      have hin := (has_iff _ (by simp [three]) _).1 hi
      constructor
      · rintro ⟨c0, hh⟩
        exfalso
        cases hz : lazyEnd q x with
        | none => rw [hz] at hh; simp at hh
        | some p =>
          obtain ⟨g, c'⟩ := p
          rw [hz] at hh
          simp only [Except.ok.injEq, Prod.mk.injEq, List.append_cancel_left_eq, List.cons.injEq, true_and] at hh
          obtain ⟨r, hr⟩ := lazy_count q x g c' hz
          have hg : '\n' ∉ g := fun hm => hx (by rw [hr]; simp [hm])
          have := hh.1
          rw [List.cons_append, joinLines_cons _ _ (by simp)] at this
          exact hg (by rw [this]; simp)
      · rintro ⟨h1, _⟩; exact absurd hin (h1 x (by simp))
    · rw [if_neg hi]
      have hin : ¬ Inside (three q) x := fun h => hi ((has_iff _ (by simp [three]) _).2 h)
      have ih := loop_exact q hq com c hc rest l ls (acc ++ '\n' :: x) fun y hy => h y (by simp [hy])
      have e : acc ++ '\n' :: joinLines (x :: ls ++ [l]) = acc ++ '\n' :: x ++ '\n' :: joinLines (ls ++ [l]) := by
        rw [List.cons_append, joinLines_cons _ _ (by simp)]; simp
      rw [e]
      constructor
      · intro hh
        obtain ⟨h1, h2⟩ := ih.1 hh
        exact ⟨fun y hy => by
          rcases List.mem_cons.1 hy with rfl | hy
          · exact hin
          · exact h1 y hy, h2⟩
      · rintro ⟨h1, h2⟩
        exact ih.2 ⟨fun y hy => h1 y (by simp [hy]), h2⟩

theorem reads_back (q : Char) (hq : q = '\'' ∨ q = '"') (v com : Str) (hcn : '\n' ∉ com) (c : Option Str) (hc : tail com = some c) (rest : List Str) :
    ((∃ c', readBack (three q ++ v ++ three q ++ com) rest = .ok (v, c', rest)) →
      (∀ l ∈ (lines v).dropLast, ¬ Inside (three q) l) ∧ ¬ Ends q ((lines v).getLast (lines_ne v))) ∧
    ((∀ l ∈ (lines v).dropLast, ¬ Inside (three q) l) ∧ ¬ Ends q ((lines v).getLast (lines_ne v)) →
      readBack (three q ++ v ++ three q ++ com) rest = .ok (v, c, rest)) := by
  have hqn : '\n' ∉ three q := by rcases hq with rfl | rfl <;> decide
  have hm := lines_mem_no v
  have hv := join_lines v
  obtain ⟨init, last, hsplit⟩ : ∃ i l, lines v = i ++ [l] := ⟨_, _, (List.dropLast_append_getLast (lines_ne v)).symm⟩
  have hgl : (lines v).getLast (lines_ne v) = last := by simp [hsplit]
  have hdl : (lines v).dropLast = init := by simp [hsplit]
  rw [hgl, hdl]
  have hlm : '\n' ∉ last := hm last (by rw [hsplit]; simp)
  have him : ∀ x ∈ init, '\n' ∉ x := fun x hx => hm x (by rw [hsplit]; simp [hx])
  have hlc : '\n' ∉ last ++ (three q ++ com) := by simp [hlm, hcn, hqn]
  have hT : three q ++ v ++ three q ++ com = three q ++ joinLines (init ++ [last ++ (three q ++ com)]) := by
    rw [← joinLines_append, ← hsplit, hv]; simp
  rw [hT]
  have hjv : v = joinLines (init ++ [last]) := by rw [← hsplit, hv]
  cases init with
  | nil =>
    have hvl : v = last := by rw [hjv]; rfl
    have hl1 : lines (three q ++ joinLines ([] ++ [last ++ (three q ++ com)])) = [three q ++ (last ++ (three q ++ com))] := by
      refine lines_no _ ?_
      simp only [List.nil_append, joinLines, List.mem_append, not_or]
      exact ⟨hqn, by simpa using hlm, hqn, hcn⟩
    unfold readBack
    rw [hl1]
    have hM : multiline (three q ++ (last ++ (three q ++ com))) ([] ++ rest) = (match single q (three q ++ (last ++ (three q ++ com))) with
      | some (g, com') => Except.ok (g, com', rest)
      | none => if has (three q) ((three q ++ (last ++ (three q ++ com))).drop 3) = true then .error .parse else loop q ((three q ++ (last ++ (three q ++ com))).drop 3) rest) := rfl
    dsimp only
    rw [hM]
    have hs : single q (three q ++ (last ++ (three q ++ com))) = lazyEnd q (last ++ (three q ++ com)) := rfl
    rw [hs]
    have he := lazy_exact q hq com c hc last
    by_cases hE : Ends q last
    · obtain ⟨g, c', e, hlt⟩ := he.2 hE
      rw [e]
      simp only [Except.ok.injEq, Prod.mk.injEq, and_true]
      constructor
      · rintro ⟨c'', h1, _⟩; rw [h1, hvl] at hlt; omega
      · rintro ⟨_, h⟩; exact absurd hE h
    · rw [he.1 hE]
      constructor
      · intro _; exact ⟨by simp, hE⟩
      · intro _; rw [hvl]
  | cons x xs =>
    have hx : '\n' ∉ x := him x (by simp)
    have hl1 : lines (three q ++ joinLines (x :: xs ++ [last ++ (three q ++ com)])) = (three q ++ x) :: (xs ++ [last ++ (three q ++ com)]) := by
      rw [List.cons_append, joinLines_cons _ _ (by simp), ← List.append_assoc, lines_split _ (by simp [hqn, hx]), lines_join _ (by simp)]
      intro l hl
      simp only [List.mem_append, List.mem_singleton] at hl
      rcases hl with hl | rfl
      · exact him l (by simp [hl])
      · exact hlc
    unfold readBack
    rw [hl1]
    have hs : single q (three q ++ x) = lazyEnd q x := rfl
    have hd : (three q ++ x).drop 3 = x := rfl
    have hM : multiline (three q ++ x) (xs ++ [last ++ (three q ++ com)] ++ rest) = (match single q (three q ++ x) with
      | some (g, com') => Except.ok (g, com', xs ++ [last ++ (three q ++ com)] ++ rest)
      | none => if has (three q) ((three q ++ x).drop 3) = true then .error .parse else loop q ((three q ++ x).drop 3) (xs ++ [last ++ (three q ++ com)] ++ rest)) := rfl
    dsimp only
    rw [hM, hs, hd]
    have hvx : v = x ++ '\n' :: joinLines (xs ++ [last]) := by rw [hjv, List.cons_append, joinLines_cons _ _ (by simp)]
    cases hz : lazyEnd q x with
    | some p =>
      obtain ⟨g, c'⟩ := p
      obtain ⟨r, hr⟩ := lazy_count q x g c' hz
      have hgn : '\n' ∉ g := fun hm => hx (by rw [hr]; simp [hm])
      have hins : Inside (three q) x := by
        by_contra hno
        have : ∀ s : Str, ¬ Inside (three q) s → lazyEnd q s = none := by
          intro s
          induction s with
          | nil => intro _; rfl
          | cons y s ih =>
            intro hs
            rw [lazyEnd]
            have hp : ¬ (three q).isPrefixOf (y :: s) = true := by
              intro h
              obtain ⟨b, hb⟩ := List.isPrefixOf_iff_prefix.1 h
              exact hs ⟨[], b, by simpa using hb.symm⟩
            rw [if_neg hp, ih]
            rintro ⟨a, b, e⟩
            exact hs ⟨y :: a, b, by rw [e]; simp⟩
        rw [this x hno] at hz; simp at hz
      constructor
      · rintro ⟨c'', h⟩
        simp only [Except.ok.injEq, Prod.mk.injEq] at h
        exact absurd (by rw [h.1, hvx]; simp) hgn
      · rintro ⟨h, _⟩; exact absurd hins (h x (by simp))
    | none =>
      dsimp only
      by_cases hi : has (three q) x = true
      · rw [if_pos hi]
        have hins := (has_iff _ (by simp [three]) _).1 hi
        constructor
        · rintro ⟨c'', h⟩; simp at h
        · rintro ⟨h, _⟩; exact absurd hins (h x (by simp))
      · rw [if_neg hi]
        have hno : ¬ Inside (three q) x := fun h => hi ((has_iff _ (by simp [three]) _).2 h)
        have hl2 := loop_exact q hq com c hc rest last xs x fun y hy => him y (by simp [hy])
        rw [← hvx] at hl2
        have ea : xs ++ [last ++ (three q ++ com)] ++ rest = xs ++ (last ++ (three q ++ com)) :: rest := by simp
        rw [ea]
        constructor
        · intro h
          obtain ⟨h1, h2⟩ := hl2.1 h
          exact ⟨fun l hl => by
            rcases List.mem_cons.1 hl with rfl | hl
            · exact hno
            · exact h1 l hl, h2⟩
        · rintro ⟨h1, h2⟩
          exact hl2.2 ⟨fun l hl => h1 l (by simp [hl]), h2⟩

/-- C189.  A value between the triple quotes q and a comment behind it: it is read back exactly if no line but the last has these quotes in it and the last has
no place that reads as quotes, white space and `#`; then the comment is read back as well and the next lines are left. -/
theorem reads_back_iff (q : Char) (hq : q = '\'' ∨ q = '"') (v ws com : Str) (hws : ∀ c ∈ ws, isSpace c = true) (hcom : com = [] ∨ ∃ r, com = '#' :: r) (hn : '\n' ∉ ws ++ com)
    (rest : List Str) :
    ((∃ c, readBack (three q ++ v ++ three q ++ (ws ++ com)) rest = .ok (v, c, rest)) ↔
      (∀ l ∈ (lines v).dropLast, ¬ Inside (three q) l) ∧ ¬ Ends q ((lines v).getLast (lines_ne v))) ∧
    ∀ c, readBack (three q ++ v ++ three q ++ (ws ++ com)) rest = .ok (v, c, rest) → c = if com = [] then none else some com := by
  have hc : tail (ws ++ com) = some (if com = [] then none else some com) := by
    rw [tail_spaces ws com hws]
    rcases hcom with rfl | ⟨r, rfl⟩
    · rfl
    · simp [tail, isSpace]
  obtain ⟨h1, h2⟩ := reads_back q hq v (ws ++ com) hn _ hc rest
  refine ⟨⟨h1, fun h => ⟨_, h2 h⟩⟩, fun c h => ?_⟩
  have := h2 (h1 ⟨c, h⟩)
  rw [this] at h
  simp only [Except.ok.injEq, Prod.mk.injEq, true_and, and_true] at h
  exact h.symm

theorem inside_line (quot v : Str) (hq : quot ≠ []) (hn : '\n' ∉ quot) : Inside quot v ↔ ∃ l ∈ lines v, Inside quot l := by
  rw [← has_iff quot hq]
  have key : ∀ ls : List Str, ls ≠ [] → (has quot (joinLines ls) = true ↔ ∃ l ∈ ls, Inside quot l) := by
    intro ls
    induction ls with
    | nil => intro h; exact absurd rfl h
    | cons l ls ih =>
      intro _
      rw [has_iff quot hq]
      cases ls with
      | nil => simp [joinLines]
      | cons m ls =>
        rw [joinLines_cons _ _ (by simp), List.exists_mem_cons_iff, ← ih (by simp), has_iff quot hq]
        constructor
        · rintro ⟨a, b, e⟩
          rcases List.append_eq_append_iff.1 e.symm with ⟨c, h1, h2⟩ | ⟨c, h1, h2⟩
          · exact Or.inl ⟨a, c, h1⟩
          · cases c with
            | nil => left; exact ⟨a, [], by simpa using h1.symm⟩
            | cons x c =>
              simp only [List.cons_append, List.cons.injEq] at h2
              obtain ⟨rfl, h2⟩ := h2
              rcases List.append_eq_append_iff.1 h1 with ⟨d, h3, h4⟩ | ⟨d, h3, h4⟩
              · exact absurd (by rw [h4]; simp) hn
              · cases d with
                | nil => simp only [List.nil_append] at h4; exact absurd (by rw [← h4]; simp) hn
                | cons y d =>
                  simp only [List.cons_append, List.cons.injEq] at h4
                  right
                  exact ⟨d, b, by rw [h2, h4.2]⟩
        · rintro (⟨a, b, e⟩ | ⟨a, b, e⟩)
          · exact ⟨a, b ++ '\n' :: joinLines (m :: ls), by rw [e]; simp⟩
          · exact ⟨l ++ '\n' :: a, b, by rw [e]; simp⟩
  have := key (lines v) (lines_ne v)
  rwa [join_lines] at this

theorem safe_of_not_inside (q : Char) (hq : q = '\'' ∨ q = '"') (v : Str) (h : ¬ Inside (three q) v) :
    (∀ l ∈ (lines v).dropLast, ¬ Inside (three q) l) ∧ ¬ Ends q ((lines v).getLast (lines_ne v)) := by
  have hn : '\n' ∉ three q := by rcases hq with rfl | rfl <;> decide
  rw [inside_line _ _ (by simp [three]) hn] at h
  push Not at h
  refine ⟨fun l hl => h l ((List.dropLast_sublist _).subset hl), ?_⟩
  rintro ⟨a, b, e, _⟩
  exact h _ (List.getLast_mem (lines_ne v)) ⟨a, b, e⟩

/-- C189.  What is written: three single quotes around values without three double quotes, three double ones around the others; values with both are refused. -/
theorem quoted_exact (v : Str) :
    (¬ Inside (three '"') v → quoted v = .ok (three '\'' ++ v ++ three '\'')) ∧
    (Inside (three '"') v → ¬ Inside (three '\'') v → quoted v = .ok (three '"' ++ v ++ three '"')) ∧
    (quoted v = .error .refused ↔ Inside (three '"') v ∧ Inside (three '\'') v) := by
  have h1 := has_iff (three '"') (by simp [three]) v
  have h2 := has_iff (three '\'') (by simp [three]) v
  rw [← h1, ← h2]
  unfold quoted tripleQuote
  cases has (three '"') v <;> cases has (three '\'') v <;> simp

/-- C189.  A value without triple quotes inside is read back as it was, whatever comment is behind it and whatever lines follow. -/
theorem written_read (v ws com : Str) (h1 : ¬ Inside (three '"') v) (h2 : ¬ Inside (three '\'') v) (hws : ∀ c ∈ ws, isSpace c = true)
    (hcom : com = [] ∨ ∃ r, com = '#' :: r) (hn : '\n' ∉ ws ++ com) (rest : List Str) :
    ∃ w, quoted v = .ok w ∧ readBack (w ++ (ws ++ com)) rest = .ok (v, if com = [] then none else some com, rest) := by
  refine ⟨_, (quoted_exact v).1 h1, ?_⟩
  obtain ⟨hi, hc⟩ := reads_back_iff '\'' (Or.inl rfl) v ws com hws hcom hn rest
  obtain ⟨c, hr⟩ := hi.2 (safe_of_not_inside '\'' (Or.inl rfl) v h2)
  rw [hr, hc c hr]

/-- C189.  Defect: the names of the quotes are exchanged (lines 80-81), so a value with one kind of triple quotes is put between this kind.  It is not read back if the quotes are in a
line before the last, or before a `#` in the last; between the other kind it always would be. -/
theorem swapped_quotes (v : Str) (q q' : Char) (hq : (q = '"' ∧ q' = '\'') ∨ (q = '\'' ∧ q' = '"')) (h1 : Inside (three q) v) (h2 : ¬ Inside (three q') v) (rest : List Str) :
    quoted v = .ok (three q ++ v ++ three q) ∧
    ((∃ c, readBack (three q ++ v ++ three q) rest = .ok (v, c, rest)) ↔ (∀ l ∈ (lines v).dropLast, ¬ Inside (three q) l) ∧ ¬ Ends q ((lines v).getLast (lines_ne v))) ∧
    readBack (three q' ++ v ++ three q') rest = .ok (v, none, rest) := by
  have hqq : q = '\'' ∨ q = '"' := by tauto
  have hqq' : q' = '\'' ∨ q' = '"' := by tauto
  have e := reads_back_iff q hqq v [] [] (by simp) (Or.inl rfl) (by simp) rest
  have e' := reads_back_iff q' hqq' v [] [] (by simp) (Or.inl rfl) (by simp) rest
  simp only [List.append_nil] at e e'
  refine ⟨?_, e.1, ?_⟩
  · rcases hq with ⟨rfl, rfl⟩ | ⟨rfl, rfl⟩
    · exact (quoted_exact v).2.1 h1 h2
    · exact (quoted_exact v).1 h2
  · obtain ⟨c, hr⟩ := e'.1.2 (safe_of_not_inside q' hqq' v h2)
    rw [hr, e'.2 c hr]
    rfl

/-- Cases: a value of two lines with quotes at the ends, a value that cannot be read any more, a value that is cut without an error. -/
theorem example_multi :
    quoted "it's\n\"so\"".toList = .ok "'''it's\n\"so\"'''".toList ∧
    readBack "'''it's\n\"so\"''' # why".toList ["next = 1".toList] = .ok ("it's\n\"so\"".toList, some "# why".toList, ["next = 1".toList]) ∧
    quoted "a'''b\nc".toList = .ok "'''a'''b\nc'''".toList ∧ readBack "'''a'''b\nc'''".toList [] = .error .parse ∧
    quoted "x\ny''' # z".toList = .ok "'''x\ny''' # z'''".toList ∧ readBack "'''x\ny''' # z'''".toList [] = .ok ("x\ny".toList, some "# z'''".toList, []) ∧
    readBack "'''b'''''".toList [] = .ok ("b''".toList, none, []) ∧ needTriple "it's".toList = false ∧ needTriple "a\nb".toList = true ∧ needTriple "'\"".toList = true := by
  refine ⟨rfl, rfl, rfl, rfl, rfl, rfl, rfl, ?_, ?_, ?_⟩ <;> decide +kernel

end Verif.ConfigMulti
