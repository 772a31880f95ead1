import Verif.TeXFileProps
import Mathlib.Data.List.Infix
import Mathlib.Tactic.FinCases

/-!
# Loading and saving a TeX file (C62)
-/

namespace Verif.TeXFile

open Verif.TeX (Str Node Arg isSpace isWord printArg splitLines findSub toNodes ArgBefore Tame Spaces allTails allTails_at dropWhile_at endTag OneLine OneLineL)

/-! ### The new lines given to the comments -/

def fresh : FNode → Prop
  | .comment _ nl => nl = false
  | _ => True

/-- A comment is followed by a new line, if by text. -/
def After : List FNode → Prop
  | [] => True
  | x :: l => (isComment (some x) = true → ∀ s r, l = .text s :: r → s = []) ∧ fresh x ∧ After l

/-- Nothing of the list is deleted because of the two nodes before it. -/
def Free (last2 last : Option FNode) (l : List FNode) : Prop :=
  (isComment last = true → isTeXt l[0]? = false) ∧
    ¬ (isComment last2 = true ∧ isTeXt last = true ∧ isNewline l[0]? = true)

theorem printL_cons (x : FNode) (l : List FNode) : printL (x :: l) = print x ++ printL l := rfl

theorem not_deleted {last2 last : Option FNode} {c : FNode} {l : List FNode} (h : Free last2 last (c :: l)) :
    deleted last2 last c = false := by
  obtain ⟨h1, h2⟩ := h
  unfold deleted
  rw [Bool.or_eq_false_iff]
  refine ⟨?_, ?_⟩
  · cases hc : isComment last with
    | false => rfl
    | true =>
      have := h1 hc
      cases c <;> first | rfl | simp [isTeXt] at this
  · by_contra hh
    rw [Bool.not_eq_false, Bool.and_eq_true, Bool.and_eq_true] at hh
    exact h2 ⟨hh.1.1, hh.1.2, hh.2⟩

theorem text_not_comment {x : FNode} (h : isTeXt (some x) = true) : isComment (some x) = false := by
  cases x <;> first | rfl | cases h

theorem tidy_print (n : Nat) : ∀ (l : List FNode) (last2 last : Option FNode), l.length ≤ n → After l →
    Free last2 last l → printL (tidy last2 last l) = printL l := by
  induction n with
  | zero =>
    intro l l2 l1 hl _ _
    have : l = [] := List.length_eq_zero_iff.mp (by omega)
    subst this; rfl
  | succ n ih =>
    intro l l2 l1 hl ha hf
    cases l with
    | nil => rfl
    | cons c l =>
      have hd := not_deleted hf
      have step : tidy l2 l1 (c :: l) = withNewline c l[0]? l[1]? :: tidy l1 (some c) l := by
        show (if deleted l2 l1 c then tidy l1 (some c) l
          else withNewline c l[0]? l[1]? :: tidy l1 (some c) l) = _
        rw [if_neg (by rw [hd]; simp)]
      rw [step, printL_cons, printL_cons]
      obtain ⟨ha1, ha2, ha3⟩ := ha
      have hl' : l.length ≤ n := by simpa using hl
      by_cases hc : isComment (some c) = true
      · obtain ⟨t, nl, rfl⟩ : ∃ t nl, c = .comment t nl := by cases c <;> first | exact ⟨_, _, rfl⟩ | simp [isComment] at hc
        have hnl : nl = false := ha2
        subst hnl
        cases l with
        | nil => rfl
        | cons x l =>
          by_cases hx : isTeXt (some x) = true
          · -- text or a new line after the comment
            have hxd : ∀ (b : Bool), print (withNewline x l[0]? l[1]?) = print x := by
              intro _; cases x <;> first | rfl | simp [isTeXt] at hx
            have hdel : printL (tidy l1 (some (.comment t false)) (x :: l))
                = print x ++ printL (tidy (some (.comment t false)) (some x) l) := by
              show printL (if deleted l1 (some (.comment t false)) x then tidy (some (.comment t false)) (some x) l
                else withNewline x l[0]? l[1]? :: tidy (some (.comment t false)) (some x) l) = _
              split_ifs with h
              · have : print x = [] := by
                  cases x with
                  | text s => rw [ha1 rfl s l rfl]; rfl
                  | newline => simp [deleted, isComment, isEmptyText, isTeXt] at h
                  | _ => simp [isTeXt] at hx
                rw [this]; rfl
              · rw [printL_cons, hxd true]
            rw [hdel]
            by_cases hn : isNewline l[0]? = true
            · cases l with
              | nil => simp [isNewline] at hn
              | cons y l =>
                have hy : y = .newline := by
                  cases y <;> first | rfl | simp [isNewline] at hn
                subst hy
                have e2 : tidy (some (.comment t false)) (some x) (.newline :: l) = tidy (some x) (some .newline) l := by
                  show (if deleted (some (.comment t false)) (some x) .newline then _ else _) = _
                  rw [if_pos]
                  simp [deleted, isComment, hx, isNewline]
                have e3 : withNewline (.comment t false) (x :: .newline :: l)[0]? (x :: .newline :: l)[1]?
                    = .comment t true := by
                  simp [withNewline, hx, isNewline]
                have hxp : print x ++ ['\n'] = ['\n'] ++ print x := by
                  cases x with
                  | text s => rw [ha1 rfl s _ rfl]; rfl
                  | newline => rfl
                  | _ => simp [isTeXt] at hx
                rw [e2, e3, ih l (some x) (some .newline) (by simp at hl'; omega) ha3.2.2.2.2]
                · show '%' :: t ++ ['\n'] ++ (print x ++ printL l) = '%' :: t ++ [] ++ (print x ++ (['\n'] ++ printL l))
                  rw [← List.append_assoc (print x), hxp]; simp
                · refine ⟨by simp [isComment], ?_⟩
                  intro h
                  have := h.1
                  rw [text_not_comment hx] at this; cases this
            · have e3 : withNewline (.comment t false) (x :: l)[0]? (x :: l)[1]? = .comment t false := by
                simp [withNewline, hn]
              rw [e3, ih l (some (.comment t false)) (some x) (by simp at hl'; omega) ha3.2.2]
              · rfl
              · refine ⟨?_, fun h => hn h.2.2⟩
                intro h
                rw [text_not_comment hx] at h; cases h
          · have e3 : withNewline (.comment t false) (x :: l)[0]? (x :: l)[1]? = .comment t false := by
              simp [withNewline, hx]
            rw [e3, ih (x :: l) l1 (some (.comment t false)) hl' ha3]
            · exact ⟨fun _ => by simpa using hx, fun h => by simp [isTeXt] at h⟩
      · have e3 : withNewline c l[0]? l[1]? = c := by
          cases c <;> first | rfl | simp [isComment] at hc
        rw [e3, ih l l1 (some c) hl' ha3]
        refine ⟨fun h => absurd h hc, ?_⟩
        rintro ⟨h1, h2, _⟩
        have := hf.1 h1
        simp [h2] at this

/-! ### The nodes -/

/-- All comments begin with `%`. -/
def Percents (cs : List Str) : Prop := ∀ t ∈ cs, ∃ l, t = '%' :: l

theorem commentNode_mark {cs : List Str} (hp : Percents cs) {k : Nat} (hk : k < cs.length) :
    ∃ l, commentNode cs [.req (str k)] = .ok (.comment l false) ∧ cs[k]? = some ('%' :: l) := by
  obtain ⟨l, hl⟩ := hp cs[k] (List.getElem_mem hk)
  have e : cs[k]? = some ('%' :: l) := by rw [List.getElem?_eq_getElem hk, hl]
  refine ⟨l, ?_, e⟩
  simp [commentNode, reqargs, readNat_str, e]

/-- Which node a node becomes. -/
def Shape (name : Str) (n : Node) (x : FNode) : Prop :=
  (isComment (some x) = true → ∃ args, n = .cmd name args) ∧ (∀ s, x = .text s → n = .text s) ∧ fresh x

theorem shape_cons {name : Str} {cs : List Str} {ns : List Node} {s : Str} {r : List FNode}
    (hsh : ∀ n x, addin name cs n = .ok x → ∀ s, x = .text s → n = .text s)
    (h : addinL name cs ns = .ok (.text s :: r)) : ∃ ns', ns = .text s :: ns' := by
  cases ns with
  | nil => cases h
  | cons n ns =>
    simp only [addinL] at h
    cases h1 : addin name cs n with
    | error e => rw [h1] at h; cases h
    | ok x =>
      rw [h1] at h
      simp only at h
      cases h2 : addinL name cs ns with
      | error e => rw [h2] at h; cases h
      | ok l =>
        rw [h2] at h
        simp only [Except.ok.injEq, List.cons.injEq] at h
        exact ⟨ns, by rw [hsh n x h1 s h.1]⟩

theorem addin_text {name : Str} {cs : List Str} (n : Node) (x : FNode) (h : addin name cs n = .ok x) (s : Str)
    (hx : x = .text s) : n = .text s := by
  subst hx
  cases n with
  | text t => simp only [addin, Except.ok.injEq, FNode.text.injEq] at h; rw [h]
  | newline => simp [addin] at h
  | env n ns => simp only [addin] at h; split at h <;> simp at h
  | math n ns => simp only [addin] at h; split at h <;> simp at h
  | enc p c ns => simp only [addin] at h; split at h <;> simp at h
  | trailing n c => simp [addin] at h
  | cmd n args =>
    simp only [addin] at h
    split_ifs at h
    · simp only [commentNode] at h
      split at h
      · cases h
      · split at h
        · cases h
        · split at h <;> simp at h
    · simp at h

mutual
theorem addin_ok {name : Str} (hn : NameOk name) {cs : List Str} (hp : Percents cs) : ∀ (n : Node) (x y ctx : Str),
    OneLine n → Marks name cs.length n → Marked name cs.length (x ++ Verif.TeX.print n ++ y) ctx →
    ∃ z, addin name cs n = .ok z ∧ print z = rest name cs n ∧ Shape name n z
  | .text t, _, _, _, _, _, _ => ⟨.text t, rfl, rfl, by simp [isComment], fun s h => (by cases h; rfl), trivial⟩
  | .newline, _, _, _, _, _, _ => ⟨.newline, rfl, rfl, by simp [isComment], fun s h => (by cases h), trivial⟩
  | .trailing n c, _, _, _, _, _, _ => ⟨.trailing n c, rfl, rfl, by simp [isComment], fun s h => (by cases h), trivial⟩
  | .enc p c ns, _, _, _, h1, h, _ => by
    have hm : Marked name cs.length (Verif.TeX.printL ns) [] := by
      rintro a b e hb ht
      exfalso
      apply h.2
      simp only [List.append_nil] at ht
      rw [e]
      exact ht.isInfix.trans ⟨a, [], by simp⟩
    obtain ⟨l, e1, _, e3⟩ := addinL_ok hn hp ns _ h1.2 h.1 hm
    refine ⟨.enc p c (tidy none none l), by simp only [addin, e1], ?_, by simp [isComment], fun s h => (by cases h), trivial⟩
    show '{' :: p ++ Verif.TeX.print c ++ printL (tidy none none l) ++ _ = _
    rw [e3]; rfl
  | .cmd n args, _, _, _, _, h, _ => by
    by_cases he : n = name
    · subst he
      obtain ⟨k, hk, rfl⟩ := h rfl
      obtain ⟨l, h1, h2⟩ := commentNode_mark hp hk
      refine ⟨.comment l false, by simp only [addin, if_pos rfl]; exact h1, ?_, fun _ => ⟨_, rfl⟩,
        fun s h => (by cases h), rfl⟩
      show '%' :: l ++ [] = restCmd n cs n [.req (str k)]
      rw [restCmd_mark h2]; simp
    · refine ⟨.cmd n args, by simp only [addin, if_neg he], ?_, by simp [isComment], fun s h => (by cases h), trivial⟩
      show '\\' :: n ++ _ = restCmd name cs n args
      rw [restCmd, if_neg he]
  | .env N ns, x, y, ctx, h1, h2, h3 => by
    have hm : Marked name cs.length (x ++ "\\begin{".toList ++ N ++ ['}'] ++ Verif.TeX.printL ns ++ (endTag N ++ y)) ctx := by
      rw [Verif.TeX.print_env] at h3
      simpa [List.append_assoc] using h3
    obtain ⟨l, e1, _, e3⟩ := addinL_ok hn hp ns _ h1 h2 (hm.part hn (.inr ⟨'\\', _, rfl, .inl rfl⟩))
    refine ⟨.env N (tidy none none l), by simp only [addin, e1], ?_, by simp [isComment], fun s h => (by cases h), trivial⟩
    show "\\begin{".toList ++ N ++ ['}'] ++ printL (tidy none none l) ++ _ = _
    rw [e3]; rfl
  | .math d ns, x, y, ctx, h1, h2, h3 => by
    have hm : Marked name cs.length (x ++ (if d then ['$', '$'] else ['$']) ++ Verif.TeX.printL ns ++
        ((if d then ['$', '$'] else ['$']) ++ y)) ctx := by
      rw [Verif.TeX.print_math] at h3
      simpa [List.append_assoc] using h3
    obtain ⟨l, e1, _, e3⟩ := addinL_ok hn hp ns _ h1 h2 (hm.part hn (.inr (by cases d <;> exact ⟨'$', _, rfl, .inr rfl⟩)))
    refine ⟨.math d (tidy none none l), by simp only [addin, e1], ?_, by simp [isComment], fun s h => (by cases h), trivial⟩
    show _ ++ printL (tidy none none l) ++ _ = _
    rw [e3]; rfl
theorem addinL_ok {name : Str} (hn : NameOk name) {cs : List Str} (hp : Percents cs) : ∀ (ns : List Node) (ctx : Str),
    OneLineL ns → MarksL name cs.length ns → Marked name cs.length (Verif.TeX.printL ns) ctx →
    ∃ l, addinL name cs ns = .ok l ∧ After l ∧ printL (tidy none none l) = restL name cs ns
  | [], _, _, _, _ => ⟨[], rfl, trivial, rfl⟩
  | n :: ns, ctx, h1, h2, h3 => by
    have h3' : Marked name cs.length (Verif.TeX.print n ++ Verif.TeX.printL ns) ctx := h3
    obtain ⟨z, a1, a2, a3⟩ := addin_ok hn hp n [] (Verif.TeX.printL ns) ctx h1.1 h2.1 (by simpa using h3')
    obtain ⟨l, b1, b2, b3⟩ := addinL_ok hn hp ns ctx h1.2 h2.2 (h3'.suffix hn)
    have b4 : printL l = restL name cs ns := by
      rw [← b3]
      exact (tidy_print l.length l none none (le_refl _) b2 ⟨by simp [isComment], by simp [isComment]⟩).symm
    have hafter : After (z :: l) := by
      refine ⟨?_, a3.2.2, b2⟩
      intro hz s r hl
      obtain ⟨args, rfl⟩ := a3.1 hz
      subst hl
      obtain ⟨ns', rfl⟩ := shape_cons (fun n x h s hx => addin_text n x h s hx) b1
      obtain ⟨k, hk, rfl⟩ := h2.1 rfl
      have he : Verif.TeX.printL (.cmd name [.req (str k)] :: .text s :: ns') = mark name k ++ (s ++ Verif.TeX.printL ns') := by
        simp [Verif.TeX.printL_cons, Verif.TeX.print_cmd, mark, printArg]
        rfl
      rw [he] at h3
      obtain ⟨⟨k', b', _, e, hb⟩, _⟩ := h3 [] _ rfl (by simp [mark]) (by
        exact ⟨('{' :: str k ++ ['}']) ++ (s ++ Verif.TeX.printL ns') ++ ctx, by simp [tag, mark]⟩)
      obtain ⟨-, rfl⟩ := mark_inj e
      cases s with
      | nil => rfl
      | cons c s =>
        exfalso
        rcases hb with hb | ⟨r, hb⟩
        · simp at hb
        · simp only [List.cons_append, List.cons.injEq] at hb
          have h11 : '\n' ∉ (c :: s) := h1.2.1
          apply h11
          rw [hb.1]
          simp
    refine ⟨z :: l, by simp only [addinL, a1, b1], hafter, ?_⟩
    rw [tidy_print _ (z :: l) none none (le_refl _) hafter ⟨by simp [isComment], by simp [isComment]⟩, printL_cons, a2, b4]
    rfl
end

/-! ## Specification: a file as lines with comments -/

/-- A line: its text before the comment and, if there is one, the comment (without its `%`). -/
structure Line where
  body : Str
  com : Option Str
deriving DecidableEq, Repr

@[simp] def comText : Option Str → Str
  | none => []
  | some c => '%' :: c

/-- The comment with its `%`. -/
def Line.comment (l : Line) : Str := comText l.com

/-- The line as it stands in the file. -/
def Line.text (l : Line) : Str := l.body ++ l.comment

/-- `x` is a line of a file: the comment begins at the first `%` that is not escaped. -/
structure Line.Valid (l : Line) : Prop where
  body : '\n' ∉ l.body
  com : ∀ c, l.com = some c → '\n' ∉ c
  /-- the `%` before the comment are escaped -/
  escaped : ∀ a b, l.body = a ++ '%' :: b → ∃ a', a = a' ++ ['\\']
  /-- that of the comment is not -/
  start : l.com ≠ none → ∀ a, l.body ≠ a ++ ['\\']

/-- The text of a file. -/
def linesText (ls : List Line) : Str := joinLines (ls.map Line.text)

/-- The comment of the line replaced by the command number `k`. -/
def Line.marked (name : Str) (k : Nat) (l : Line) : Str :=
  match l.com with
  | none => l.body
  | some _ => l.body ++ mark name k

/-- The lines with their comments replaced by commands numbered from `k`. -/
def marked (name : Str) : Nat → List Line → List Str
  | _, [] => []
  | k, l :: ls => l.marked name k :: marked name (if l.com = none then k else k + 1) ls

/-- The comments of the lines. -/
def comments : List Line → List Str
  | [] => []
  | l :: ls => if l.com = none then comments ls else l.comment :: comments ls

/-- The name publication.py gives to the command: `astppubcomment`, or if this occurs in the text the
first of `astppubcomment0`, `astppubcomment1`, ... that does not. -/
def IsName (f name : Str) : Prop :=
  (name = baseName ∧ ¬ baseName <:+: f) ∨
  (baseName <:+: f ∧ ∃ i, name = baseName ++ str i ∧ ¬ name <:+: f ∧ ∀ j < i, (baseName ++ str j) <:+: f)

/-! ### The name -/

theorem contains_iff {a b : Str} : contains b a = true ↔ a <:+: b := by
  unfold contains
  cases h : findSub a b with
  | none => simpa using Verif.TeX.findSub_none h
  | some p =>
    obtain ⟨x, y⟩ := p
    simp only [Option.isSome_some, true_iff]
    exact ⟨x, y, (Verif.TeX.findSub_spec h).symm⟩

theorem nameFrom_spec (f : Str) : ∀ (fuel i : Nat) (name : Str), baseName <:+: f →
    (∀ j < i, (baseName ++ str j) <:+: f) →
    (∃ j, i ≤ j ∧ j < i + fuel ∧ ¬ (baseName ++ str j) <:+: f) → name <:+: f →
    ∃ n k, nameFrom f fuel i name = some n ∧ n = baseName ++ str k ∧ ¬ n <:+: f ∧
      ∀ j < k, (baseName ++ str j) <:+: f := by
  intro fuel
  induction fuel with
  | zero => intro i name _ _ h; obtain ⟨j, h1, h2, _⟩ := h; omega
  | succ fuel ih =>
    intro i name hb hlt hex hin
    unfold nameFrom
    rw [if_pos (contains_iff.mpr hin)]
    simp only
    by_cases hi : (baseName ++ str i) <:+: f
    · refine ih (i + 1) _ hb ?_ ?_ hi
      · intro j hj
        rcases Nat.lt_succ_iff_lt_or_eq.mp hj with h | rfl
        · exact hlt j h
        · exact hi
      · obtain ⟨j, h1, h2, h3⟩ := hex
        refine ⟨j, ?_, by omega, h3⟩
        rcases Nat.lt_or_eq_of_le h1 with h | rfl
        · exact h
        · exact absurd hi h3
    · refine ⟨baseName ++ str i, i, ?_, rfl, hi, hlt⟩
      unfold nameFrom
      rw [if_neg (fun h => hi (contains_iff.mp h))]

/-- The search for the name ends, with the name of the specification. -/
theorem name_found (f : Str) : ∃ name, commentName f = some name ∧ IsName f name := by
  unfold commentName
  by_cases hb : baseName <:+: f
  · have hno : ¬ (baseName ++ str (10 ^ f.length)) <:+: f := by
      intro h
      have hl := h.length_le
      have h1 : ¬ (Nat.toDigits 10 (10 ^ f.length)).length ≤ f.length := by
        by_cases hf : f.length = 0
        · have := @Nat.length_toDigits_pos 10 (10 ^ f.length)
          omega
        · rw [Nat.length_toDigits_le_iff (by omega) (by omega)]
          simp
      simp only [str, List.length_append] at hl
      omega
    obtain ⟨n, k, h1, h2, h3, h4⟩ := nameFrom_spec f (10 ^ f.length + 1) 0 baseName hb (fun j hj => absurd hj (Nat.not_lt_zero j))
      ⟨10 ^ f.length, Nat.zero_le _, by omega, hno⟩ hb
    exact ⟨n, h1, .inr ⟨hb, k, h2, h3, h4⟩⟩
  · refine ⟨baseName, ?_, .inl ⟨rfl, hb⟩⟩
    unfold nameFrom
    rw [if_neg (fun h => hb (contains_iff.mp h))]

theorem isName_unique {f n n' : Str} (h : IsName f n) (h' : IsName f n') : n = n' := by
  rcases h with ⟨rfl, h1⟩ | ⟨h1, i, rfl, h2, h3⟩
  · rcases h' with ⟨rfl, _⟩ | ⟨h1', _⟩
    · rfl
    · exact absurd h1' h1
  · rcases h' with ⟨rfl, h1'⟩ | ⟨h1', i', rfl, h2', h3'⟩
    · exact absurd h1 h1'
    · rcases Nat.lt_trichotomy i i' with h | rfl | h
      · exact absurd (h3' i h) h2
      · rfl
      · exact absurd (h3 i' h) h2'

theorem IsName.ok {f name : Str} (h : IsName f name) : NameOk name := by
  have hb : ∀ c ∈ baseName, isWord c = true := by decide
  rcases h with ⟨rfl, _⟩ | ⟨_, i, rfl, _⟩
  · exact ⟨⟨_, rfl⟩, hb⟩
  · refine ⟨⟨_, rfl⟩, ?_⟩
    intro c hc
    rcases List.mem_append.mp hc with h | h
    · exact hb c h
    · exact digit_word (str_digit i c h)

theorem IsName.fresh {f name : Str} (h : IsName f name) : ¬ name <:+: f := by
  rcases h with ⟨rfl, h⟩ | ⟨_, i, rfl, h, _⟩ <;> exact h

/-! ### The lines -/

theorem joinLines_cons {l : Str} {ls : List Str} (h : ls ≠ []) : joinLines (l :: ls) = l ++ '\n' :: joinLines ls := by
  cases ls with
  | nil => exact absurd rfl h
  | cons m ls => rfl

theorem split_join : ∀ (ls : List Str), ls ≠ [] → (∀ l ∈ ls, '\n' ∉ l) → splitLines (joinLines ls) = ls := by
  have one : ∀ (l r : Str), '\n' ∉ l → splitLines (l ++ '\n' :: r) = l :: splitLines r := by
    intro l r
    induction l with
    | nil => intro _; simp [splitLines]
    | cons c l ih =>
      intro h
      have hc : c ≠ '\n' := fun e => h (by simp [e])
      simp only [List.cons_append, splitLines]
      rw [if_neg hc, ih (fun hm => h (by simp [hm]))]
  have last : ∀ (l : Str), '\n' ∉ l → splitLines l = [l] := by
    intro l
    induction l with
    | nil => intro _; rfl
    | cons c l ih =>
      intro h
      have hc : c ≠ '\n' := fun e => h (by simp [e])
      simp only [splitLines]
      rw [if_neg hc, ih (fun hm => h (by simp [hm]))]
  intro ls
  induction ls with
  | nil => intro h; exact absurd rfl h
  | cons l ls ih =>
    intro _ hl
    cases ls with
    | nil => exact last l (hl l (by simp))
    | cons m ls =>
      rw [joinLines_cons (by simp), one l _ (hl l (by simp)), ih (by simp) (fun x hx => hl x (by simp [hx]))]

theorem joinLines_append : ∀ (a b : List Str), a ≠ [] → b ≠ [] →
    joinLines (a ++ b) = joinLines a ++ '\n' :: joinLines b := by
  intro a
  induction a with
  | nil => intro b h; exact absurd rfl h
  | cons x a ih =>
    intro b _ hb
    cases a with
    | nil => exact joinLines_cons hb
    | cons y a =>
      rw [List.cons_append, joinLines_cons (by simp), ih b (by simp) hb,
        joinLines_cons (l := x) (ls := y :: a) (by simp)]
      simp

theorem commentAt_valid : ∀ (body : Str) (esc : Bool) (com : Option Str),
    (∀ a b, body = a ++ '%' :: b → (a = [] ∧ esc = true) ∨ ∃ a', a = a' ++ ['\\']) →
    (com ≠ none → (body = [] → esc = false) ∧ ∀ a, body ≠ a ++ ['\\']) →
    commentAt esc (body ++ comText com) = com.map (fun c => (body, '%' :: c)) := by
  intro body
  induction body with
  | nil =>
    intro esc com _ h
    cases com with
    | none => rfl
    | some c =>
      have := (h (by simp)).1 rfl
      simp [commentAt, this]
  | cons x body ih =>
    intro esc com h1 h2
    have hx : ¬ (x = '%' ∧ esc = false) := by
      rintro ⟨rfl, he⟩
      rcases h1 [] body rfl with ⟨_, h⟩ | ⟨a', h⟩
      · rw [he] at h; cases h
      · simp at h
    simp only [List.cons_append, commentAt]
    rw [if_neg hx, ih (x == '\\') com ?_ ?_]
    · cases com <;> rfl
    · intro a b hab
      rcases h1 (x :: a) b (by rw [hab]; rfl) with ⟨h, _⟩ | ⟨a', h⟩
      · cases h
      · cases a with
        | nil =>
          left
          cases a' with
          | nil => simp only [List.nil_append, List.cons.injEq] at h; simp [h.1]
          | cons y a' => simp at h
        | cons y a =>
          right
          cases a' with
          | nil => simp at h
          | cons z a' =>
            simp only [List.cons_append, List.cons.injEq] at h
            exact ⟨a', h.2⟩
    · intro hc
      obtain ⟨_, h4⟩ := h2 hc
      refine ⟨?_, fun a ha => h4 (x :: a) (by rw [ha]; rfl)⟩
      rintro rfl
      have := h4 []
      simpa using this

theorem markLines_marked (name : Str) : ∀ (ls : List Line) (k : Nat), (∀ l ∈ ls, l.Valid) →
    markLines name k (ls.map Line.text) = (marked name k ls, comments ls) := by
  intro ls
  induction ls with
  | nil => intro k _; rfl
  | cons l ls ih =>
    intro k h
    have hv := h l (by simp)
    have hc : commentAt false l.text = l.com.map (fun c => (l.body, '%' :: c)) := by
      refine commentAt_valid l.body false l.com (fun a b hab => .inr (hv.escaped a b hab)) (fun hn => ⟨fun _ => rfl, hv.start hn⟩)
    simp only [List.map_cons, markLines, hc]
    cases hcm : l.com with
    | none =>
      simp only [Option.map_none, marked, comments, Line.marked, hcm, if_pos]
      rw [ih k (fun x hx => h x (by simp [hx]))]
      simp [Line.text, Line.comment, hcm]
    | some c =>
      simp only [Option.map_some, marked, comments, Line.marked, Line.comment, hcm, reduceCtorEq, if_false]
      rw [ih (k + 1) (fun x hx => h x (by simp [hx]))]
      rfl

theorem marked_append (name : Str) : ∀ (a b : List Line) (k : Nat),
    marked name k (a ++ b) = marked name k a ++ marked name (k + (comments a).length) b := by
  intro a
  induction a with
  | nil => intro b k; rfl
  | cons l a ih =>
    intro b k
    simp only [List.cons_append, marked, comments]
    rw [ih]
    split_ifs with h
    · rfl
    · simp only [List.length_cons]
      rw [show k + 1 + (comments a).length = k + ((comments a).length + 1) by omega]

theorem comments_append (a b : List Line) : comments (a ++ b) = comments a ++ comments b := by
  induction a with
  | nil => rfl
  | cons l a ih => simp only [List.cons_append, comments, ih]; split_ifs <;> rfl

theorem comments_percent (ls : List Line) : Percents (comments ls) := by
  induction ls with
  | nil => intro t ht; cases ht
  | cons l ls ih =>
    intro t ht
    simp only [comments] at ht
    split_ifs at ht with h
    · exact ih t ht
    · rcases List.mem_cons.mp ht with rfl | ht
      · unfold Line.comment
        cases hc : l.com with
        | none => exact absurd hc h
        | some c => exact ⟨c, rfl⟩
      · exact ih t ht

/-- A text in front of a mark or the end of a line does not run into it. -/
theorem prefix_stop {name : Str} (hn : NameOk name) {b r : Str} (hr : r = [] ∨ ∃ c s, r = c :: s ∧ (c = '\\' ∨ c = '\n'))
    (hb : b ≠ []) (h : tag name <+: b ++ r) : tag name <+: b := by
  obtain ⟨z, hz⟩ := h
  rcases List.append_eq_append_iff.mp hz with ⟨w, h1, h2⟩ | ⟨w, h1, h2⟩
  · exact ⟨w, h1.symm⟩
  · cases w with
    | nil => exact ⟨[], by simpa using h1⟩
    | cons c w =>
      exfalso
      rcases hr with rfl | ⟨d, s, rfl, hd⟩
      · simp at h2
      · simp only [List.cons_append, List.cons.injEq] at h2
        obtain ⟨rfl, -⟩ := h2
        cases b with
        | nil => exact hb rfl
        | cons e b =>
          simp only [tag, List.cons_append, List.cons.injEq] at h1
          have := hn.word d (by rw [h1.2]; simp)
          rcases hd with rfl | rfl <;> exact absurd this (by decide)

/-- The texts after a line. -/
def tailText (ls : List Str) : Str := if ls = [] then [] else '\n' :: joinLines ls

theorem joinLines_tail (l : Str) (ls : List Str) : joinLines (l :: ls) = l ++ tailText ls := by
  unfold tailText
  split_ifs with h
  · subst h; simp [joinLines]
  · exact joinLines_cons h

theorem tail_nl (ls : List Str) : NL (tailText ls) := by
  unfold tailText
  split_ifs
  · exact .inl rfl
  · exact .inr ⟨_, rfl⟩

/-- What stands for the comment of a line. -/
def Line.markOf (name : Str) (k : Nat) (l : Line) : Str := if l.com = none then [] else mark name k

theorem marked_line (name : Str) (k : Nat) (l : Line) : l.marked name k = l.body ++ l.markOf name k := by
  unfold Line.marked Line.markOf
  cases l.com <;> simp

/-- The lines before, with their line ends. -/
def block (name : Str) (k : Nat) (ls : List Line) : Str := ((marked name k ls).map (· ++ ['\n'])).flatten

theorem stops (name : Str) (k : Nat) (l : Line) (ls : List Str) :
    l.markOf name k ++ tailText ls = [] ∨ ∃ c s, l.markOf name k ++ tailText ls = c :: s ∧ (c = '\\' ∨ c = '\n') := by
  unfold Line.markOf
  split_ifs
  · rcases tail_nl ls with h | ⟨r, h⟩
    · left; simp [h]
    · right; exact ⟨'\n', r, by simp [h], .inr rfl⟩
  · right; exact ⟨'\\', _, rfl, .inl rfl⟩

/-- Where the command for comments occurs in the marked text. -/
theorem mark_found {name : Str} (hn : NameOk name) : ∀ (ls : List Line) (k : Nat) (a b : Str),
    (∀ l ∈ ls, ¬ name <:+: l.body) → joinLines (marked name k ls) = a ++ b → b ≠ [] → tag name <+: b →
    ∃ ls1 l ls2, ls = ls1 ++ l :: ls2 ∧ l.com ≠ none ∧ a = block name k ls1 ++ l.body ∧
      b = mark name (k + (comments ls1).length) ++ tailText (marked name (k + (comments ls1).length + 1) ls2) := by
  intro ls
  induction ls with
  | nil =>
    intro k a b _ h hb
    simp only [marked, joinLines] at h
    exact absurd (List.append_eq_nil_iff.mp h.symm).2 hb
  | cons l ls ih =>
    intro k a b hno h hb ht
    simp only [marked] at h
    rw [joinLines_tail, marked_line, List.append_assoc] at h
    generalize hk' : (if l.com = none then k else k + 1) = k' at h
    rcases List.append_eq_append_iff.mp h with ⟨w, h1, h2⟩ | ⟨w, h1, h2⟩
    · -- after the body
      unfold Line.markOf at h2
      by_cases hc : l.com = none
      · rw [if_pos hc] at h2
        rw [if_pos hc] at hk'
        subst hk'
        simp only [List.nil_append] at h2
        unfold tailText at h2
        split_ifs at h2 with hls
        · exact absurd (List.append_eq_nil_iff.mp h2.symm).2 hb
        · cases w with
          | nil =>
            simp only [List.nil_append] at h2
            rw [← h2] at ht
            obtain ⟨z, hz⟩ := ht
            simp [tag] at hz
          | cons c w =>
            simp only [List.cons_append, List.cons.injEq] at h2
            obtain ⟨rfl, h2⟩ := h2
            obtain ⟨ls1, m, ls2, e1, e2, e3, e4⟩ := ih k w b (fun x hx => hno x (by simp [hx])) h2 hb ht
            refine ⟨l :: ls1, m, ls2, by rw [e1]; rfl, e2, ?_, ?_⟩
            · rw [h1, e3]
              simp [block, marked, hc, Line.marked]
            · rw [e4]; simp [comments, hc]
      · rw [if_neg hc] at h2
        rw [if_neg hc] at hk'
        subst hk'
        rcases List.append_eq_append_iff.mp h2 with ⟨v, h3, h4⟩ | ⟨v, h3, h4⟩
        · unfold tailText at h4
          split_ifs at h4 with hls
          · exact absurd (List.append_eq_nil_iff.mp h4.symm).2 hb
          · cases v with
            | nil =>
              simp only [List.nil_append] at h4
              rw [← h4] at ht
              obtain ⟨z, hz⟩ := ht
              simp [tag] at hz
            | cons c v =>
              simp only [List.cons_append, List.cons.injEq] at h4
              obtain ⟨rfl, h4⟩ := h4
              obtain ⟨ls1, m, ls2, e1, e2, e3, e4⟩ := ih (k + 1) v b (fun x hx => hno x (by simp [hx])) h4 hb ht
              refine ⟨l :: ls1, m, ls2, by rw [e1]; rfl, e2, ?_, ?_⟩
              · rw [h1, h3, e3]
                simp [block, marked, hc, marked_line, Line.markOf]
              · rw [e4]
                simp only [comments, hc, if_false, List.length_cons]
                rw [show k + 1 + (comments ls1).length = k + ((comments ls1).length + 1) by omega]
        · cases w with
          | nil =>
            simp only [List.nil_append] at h2 h3
            exact ⟨[], l, ls, rfl, hc, by simp [block, marked, h1], by rw [← h2]; simp [comments]⟩
          | cons c w =>
            exfalso
            cases v with
            | nil =>
              simp only [List.nil_append] at h4
              rw [h4] at ht
              unfold tailText at ht
              split_ifs at ht
              · simp [tag] at ht
              · obtain ⟨z, hz⟩ := ht
                simp [tag] at hz
            | cons d v =>
              have hd : d = '\\' := by
                rw [h4] at ht
                obtain ⟨z, hz⟩ := ht
                simp only [tag, List.cons_append, List.cons.injEq] at hz
                exact hz.1.symm
              have : d ∈ (mark name k).tail := by rw [h3]; simp
              rcases mark_chars hn this with h | h | h
              · exact (isWord_ne h).1 hd
              · rw [hd] at h; exact absurd h (by decide)
              · rw [hd] at h; exact absurd h (by decide)
    · -- in the body
      by_cases hw : w = []
      · subst hw
        simp only [List.append_nil, List.nil_append] at h1 h2
        by_cases hc : l.com = none
        · exfalso
          simp only [Line.markOf, if_pos hc, List.nil_append] at h2
          rw [h2] at ht
          rcases tail_nl (marked name k' ls) with h | ⟨r, h⟩
          · rw [h] at ht; simp [tag] at ht
          · rw [h] at ht
            obtain ⟨z, hz⟩ := ht
            simp [tag] at hz
        · simp only [Line.markOf, if_neg hc] at h2
          rw [if_neg hc] at hk'
          subst hk'
          exact ⟨[], l, ls, rfl, hc, by simp [block, marked, h1], by rw [h2]; simp [comments]⟩
      · exfalso
        rw [h2] at ht
        have := prefix_stop hn (stops name k l _) hw ht
        apply hno l (by simp)
        rw [h1]
        obtain ⟨z, hz⟩ := this
        exact ⟨a ++ ['\\'], z, by rw [← hz]; simp [tag]⟩

/-! ### Arguments and names of environments end on their line -/

/-- The comments of the lines are not inside arguments, and the names of environments end on their
lines. -/
structure Tidy (ls : List Line) : Prop where
  valid : ∀ l ∈ ls, l.Valid
  /-- no comment begins inside an argument in curly brackets -/
  args : ∀ l ∈ ls, l.com ≠ none → ∀ p v, ArgBefore p → '}' ∉ v → ¬ (p :: '{' :: v) <:+ l.body
  /-- no line ends, and no comment begins, inside the name of an environment -/
  begins : ∀ l ∈ ls, ∀ v, '}' ∉ v → ¬ ("\\begin{".toList ++ v) <:+ l.body
  ends : ∀ l ∈ ls, ∀ v, '}' ∉ v → ¬ ("\\end{".toList ++ v) <:+ l.body

theorem suffix_line {s x y : Str} (h : s <:+ x ++ '\n' :: y) : s <:+ y ∨ ∃ s1, s = s1 ++ '\n' :: y ∧ s1 <:+ x := by
  obtain ⟨w, hw⟩ := h
  rcases List.append_eq_append_iff.mp hw with ⟨v, h1, h2⟩ | ⟨v, h1, h2⟩
  · exact .inr ⟨v, h2, w, h1.symm⟩
  · cases v with
    | nil => exact .inr ⟨[], by simpa using h2.symm, List.nil_suffix⟩
    | cons c v =>
      simp only [List.cons_append, List.cons.injEq] at h2
      exact .inl ⟨v, h2.2.symm⟩

theorem block_cons (name : Str) (k : Nat) (l : Line) (ls : List Line) (b : Str) :
    block name k (l :: ls) ++ b = l.marked name k ++ '\n' :: (block name (if l.com = none then k else k + 1) ls ++ b) := by
  simp [block, marked]

theorem block_line (name : Str) : ∀ (ls : List Line) (k : Nat) (b s : Str), '\n' ∉ s → s <:+ block name k ls ++ b → s <:+ b := by
  intro ls
  induction ls with
  | nil => intro k b s _ h; simpa [block, marked] using h
  | cons l ls ih =>
    intro k b s hs h
    rw [block_cons] at h
    rcases suffix_line h with h | ⟨s1, h, _⟩
    · exact ih _ b s hs h
    · rw [h] at hs; simp at hs

theorem open_mark {name : Str} {k : Nat} {w v body : Str} (hv : '}' ∉ v) (hw : '}' ∉ w) (hne : w ≠ []) :
    ¬ (w ++ v) <:+ body ++ mark name k := by
  intro h
  have h1 : '}' ∈ w ++ v := by
    obtain ⟨x, hx⟩ := h
    have e : (x ++ (w ++ v)).getLast? = some '}' := by
      rw [hx, show body ++ mark name k = (body ++ ('\\' :: name ++ '{' :: str k)) ++ ['}'] by simp [mark]]
      exact List.getLast?_concat
    have hwv : w ++ v ≠ [] := by simp [hne]
    rw [List.getLast?_append_of_ne_nil _ hwv] at e
    exact List.mem_of_getLast? e
  rcases List.mem_append.mp h1 with h | h
  · exact hw h
  · exact hv h

theorem block_name {name : Str} {w : Str} (hw : '}' ∉ w) (hne : w ≠ []) (hwl : '\n' ∉ w) : ∀ (ls : List Line) (k : Nat) (b : Str),
    (∀ l ∈ ls, ∀ v, '}' ∉ v → ¬ (w ++ v) <:+ l.body) → (∀ v, '}' ∉ v → ¬ (w ++ v) <:+ b) →
    ∀ v, '}' ∉ v → ¬ (w ++ v) <:+ block name k ls ++ b := by
  intro ls
  induction ls with
  | nil => intro k b _ hb v hv h; exact hb v hv (by simpa [block, marked] using h)
  | cons l ls ih =>
    intro k b hl hb v hv h
    rw [block_cons] at h
    rcases suffix_line h with h | ⟨s1, h1, h2⟩
    · exact ih _ b (fun x hx => hl x (by simp [hx])) hb v hv h
    · have h3 : ∃ v1, s1 = w ++ v1 ∧ v = v1 ++ '\n' :: (block name (if l.com = none then k else k + 1) ls ++ b) := by
        rcases List.append_eq_append_iff.mp h1 with ⟨u, e1, e2⟩ | ⟨u, e1, e2⟩
        · exact ⟨u, e1, e2⟩
        · cases u with
          | nil => exact ⟨[], by simpa using e1.symm, by simpa using e2.symm⟩
          | cons c u =>
            simp only [List.cons_append, List.cons.injEq] at e2
            exfalso; apply hwl; rw [e1, ← e2.1]; simp
      obtain ⟨v1, rfl, e⟩ := h3
      have hv1 : '}' ∉ v1 := fun hm => hv (by rw [e]; simp [hm])
      rw [marked_line] at h2
      unfold Line.markOf at h2
      split_ifs at h2 with hc
      · exact hl l (by simp) v1 hv1 (by simpa using h2)
      · exact open_mark hv1 hw hne h2

theorem argBefore_nl {p : Char} (h : ArgBefore p) : p ≠ '\n' := by
  rcases h with h | rfl | rfl | rfl
  · exact (isWord_ne h).2.2.2.2.1
  · decide
  · decide
  · decide

theorem closed_before {name : Str} {k : Nat} {ls1 : List Line} {l : Line} (hc : l.com ≠ none)
    (h1 : Tidy ls1) (h2 : Tidy [l]) : Closed (block name k ls1 ++ l.body) where
  arg p v hp hv hvl h := by
    refine h2.args l (by simp) hc p v hp hv (block_line name ls1 k _ _ ?_ h)
    simp only [List.mem_cons, not_or]
    exact ⟨(argBefore_nl hp).symm, by decide, hvl⟩
  begins := block_name (by decide) (by decide) (by decide) ls1 k _ h1.begins (h2.begins l (by simp))
  ends := block_name (by decide) (by decide) (by decide) ls1 k _ h1.ends (h2.ends l (by simp))

theorem Tidy.sub {ls ls' : List Line} (h : Tidy ls) (hs : ∀ l ∈ ls', l ∈ ls) : Tidy ls' where
  valid l hl := h.valid l (hs l hl)
  args l hl := h.args l (hs l hl)
  begins l hl := h.begins l (hs l hl)
  ends l hl := h.ends l (hs l hl)

theorem tidy_marked {name : Str} (hn : NameOk name) {ls : List Line} {k m : Nat} (hno : ∀ l ∈ ls, ¬ name <:+: l.body)
    (ht : Tidy ls) (hk : k + (comments ls).length ≤ m) : Marked name m (joinLines (marked name k ls)) [] := by
  intro a b hab hb htag
  obtain ⟨ls1, l, ls2, rfl, hc, ha, hb'⟩ := mark_found hn ls k a b hno hab hb (by simpa using htag)
  refine ⟨⟨k + (comments ls1).length, _, ?_, hb', by simpa using tail_nl _⟩, ?_⟩
  · have : (comments (ls1 ++ l :: ls2)).length = (comments ls1).length + (1 + (comments ls2).length) := by
      rw [comments_append]
      simp only [comments, if_neg hc, List.length_append, List.length_cons]
      omega
    omega
  · rw [ha]
    exact closed_before hc (ht.sub (by simp +contextual)) (ht.sub (by simp))

/-! ### The comments in their places -/

theorem noTag_body {name : Str} (hn : NameOk name) {r : Str} (hr : r = [] ∨ ∃ c s, r = c :: s ∧ (c = '\\' ∨ c = '\n')) :
    ∀ (b : Str), ¬ name <:+: b → NoTag name r b := by
  intro b
  induction b with
  | nil => intro _; trivial
  | cons c b ih =>
    intro h
    refine ⟨?_, ih (fun hi => h (List.infix_cons hi))⟩
    intro ht
    obtain ⟨z, hz⟩ := prefix_stop hn hr (by simp) (show tag name <+: (c :: b) ++ r by simpa using ht)
    exact h ⟨['\\'], z, by rw [← hz]; simp [tag]⟩

theorem lines_restored {name : Str} (hn : NameOk name) {cs : List Str} : ∀ (ls : List Line) (k : Nat),
    (∀ l ∈ ls, ¬ name <:+: l.body) → (∀ i, i < (comments ls).length → cs[k + i]? = (comments ls)[i]?) →
    Restored name cs [] (joinLines (marked name k ls)) (linesText ls) := by
  intro ls
  induction ls with
  | nil => intro k _ _; exact .nil
  | cons l ls ih =>
    intro k hno hcs
    have hrest : Restored name cs [] (joinLines (marked name (if l.com = none then k else k + 1) ls)) (linesText ls) := by
      refine ih _ (fun x hx => hno x (by simp [hx])) ?_
      intro i hi
      split_ifs with hc
      · have := hcs i (by simpa [comments, hc] using hi)
        simpa [comments, hc] using this
      · have := hcs (i + 1) (by simpa [comments, hc] using hi)
        simp only [comments, if_neg hc, List.getElem?_cons_succ] at this
        rw [← this]
        congr 1; omega
    have htail : Restored name cs [] (tailText (marked name (if l.com = none then k else k + 1) ls)) (tailText (ls.map Line.text)) := by
      generalize (if l.com = none then k else k + 1) = k' at hrest ⊢
      cases ls with
      | nil => exact .nil
      | cons x ls =>
        unfold tailText
        rw [if_neg (show ¬ marked name k' (x :: ls) = [] by simp [marked]), if_neg (show ¬ List.map Line.text (x :: ls) = [] by simp)]
        exact .char _ _ _ (by rintro ⟨z, hz⟩; simp [tag] at hz) hrest
    have hmk : Restored name cs (tailText (marked name (if l.com = none then k else k + 1) ls)) (l.markOf name k) l.comment := by
      unfold Line.markOf Line.comment
      cases hc : l.com with
      | none => rw [if_pos rfl]; exact .nil
      | some c =>
        rw [if_neg (by simp)]
        have := hcs 0 (by simp [comments, hc])
        simp only [comments, hc, reduceCtorEq, if_false, Line.comment, List.getElem?_cons_zero, Nat.add_zero] at this
        have h := Restored.com (name := name) (ctx := tailText (marked name (if some c = none then k else k + 1) ls)) k _ [] [] this .nil
        simpa using h
    have hbody : Restored name cs (l.markOf name k ++ tailText (marked name (if l.com = none then k else k + 1) ls)) l.body l.body :=
      (noTag_body hn (stops name k l _) l.body (hno l (by simp))).restored
    have e1 : joinLines (marked name k (l :: ls)) = l.body ++ (l.markOf name k ++ tailText (marked name (if l.com = none then k else k + 1) ls)) := by
      simp only [marked]
      rw [joinLines_tail, marked_line, List.append_assoc]
    have e2 : linesText (l :: ls) = l.body ++ (l.comment ++ tailText (ls.map Line.text)) := by
      unfold linesText
      rw [List.map_cons, joinLines_tail]
      simp [Line.text]
    rw [e1, e2]
    refine Restored.append (by simpa using hbody) (Restored.append (by simpa using hmk) htail)

/-! ### The document and the preamble -/

theorem doc_marked {name : Str} (hn : NameOk name) (k : Nat) (l : Line) :
    contains (l.marked name k) "\\begin{document}".toList = true ↔ "\\begin{document}".toList <:+: l.body := by
  rw [contains_iff, marked_line]
  constructor
  · rintro ⟨x, y, h⟩
    unfold Line.markOf at h
    split_ifs at h with hc
    · exact ⟨x, y, by simpa using h⟩
    · rw [List.append_assoc] at h
      have hbe : ∀ z, "\\begin{document}".toList ++ y = z ++ mark name k → z ≠ [] →
          "\\begin{document}".toList <:+: z := by
        intro z hz hne
        rcases List.append_eq_append_iff.mp hz with ⟨u, e1, e2⟩ | ⟨u, e1, e2⟩
        · exact ⟨[], u, by rw [e1]; simp⟩
        · cases u with
          | nil => exact ⟨[], [], by simpa using e1⟩
          | cons c u =>
            exfalso
            simp only [mark, List.cons_append, List.cons.injEq] at e2
            obtain ⟨rfl, -⟩ := e2
            cases z with
            | nil => exact hne rfl
            | cons d z =>
              have : '\\' ∈ ("\\begin{document}".toList).tail := by rw [e1]; simp
              revert this; decide
      rcases List.append_eq_append_iff.mp h with ⟨u, e1, e2⟩ | ⟨u, e1, e2⟩
      · by_cases hu : u = []
        · exfalso
          subst hu
          obtain ⟨n, rfl⟩ := hn.head
          simp [mark] at e2
        · rw [e1]
          exact (hbe u e2 hu).trans ⟨x, [], by simp⟩
      · exfalso
        cases u with
        | nil =>
          obtain ⟨n, rfl⟩ := hn.head
          simp [mark] at e2
        | cons c u =>
          have : '\\' ∈ (mark name k).tail := by rw [e2]; simp
          rcases mark_chars hn this with h | h | h
          · exact (isWord_ne h).1 rfl
          · exact absurd h (by decide)
          · exact absurd h (by decide)
  · intro h
    exact h.trans ⟨[], l.markOf name k, by simp⟩

theorem splitDoc_none {name : Str} (hn : NameOk name) : ∀ (ls : List Line) (k : Nat),
    (∀ l ∈ ls, ¬ "\\begin{document}".toList <:+: l.body) → splitDoc (marked name k ls) = (marked name k ls, none) := by
  intro ls
  induction ls with
  | nil => intro k _; rfl
  | cons l ls ih =>
    intro k h
    simp only [marked, splitDoc]
    rw [if_neg (fun hc => h l (by simp) ((doc_marked hn k l).mp hc)), ih _ (fun x hx => h x (by simp [hx]))]

theorem splitDoc_found {name : Str} (hn : NameOk name) (d : Line) (con : List Line)
    (hd : "\\begin{document}".toList <:+: d.body) : ∀ (pre : List Line) (k : Nat),
    (∀ l ∈ pre, ¬ "\\begin{document}".toList <:+: l.body) →
    splitDoc (marked name k (pre ++ d :: con)) =
      (marked name k pre, some (marked name (k + (comments pre).length) (d :: con))) := by
  intro pre
  induction pre with
  | nil =>
    intro k _
    simp only [List.nil_append, marked, splitDoc]
    rw [if_pos ((doc_marked hn k d).mpr hd)]
    rfl
  | cons l pre ih =>
    intro k h
    simp only [List.cons_append, marked, splitDoc]
    rw [if_neg (fun hc => h l (by simp) ((doc_marked hn k l).mp hc)), ih _ (fun x hx => h x (by simp [hx]))]
    by_cases hc : l.com = none
    · simp only [comments, hc, if_true]
      rfl
    · simp only [comments, hc, if_false, List.length_cons]
      rw [show k + 1 + (comments pre).length = k + ((comments pre).length + 1) by omega]
      rfl

/-- The `\documentclass` and `\usepackage` commands among the nodes have the usual arguments:
`\documentclass{x}` or `\documentclass[o]{x}` with options that are not blank, and `\usepackage` with
a required argument. -/
def ClassOk (ps : List Node) : Prop :=
  ∀ n args, Node.cmd n args ∈ ps →
    (n = "documentclass".toList → (∃ x, args = [.req x]) ∨ ∃ o x, args = [.opt o, .req x] ∧ ∃ c ∈ o, isSpace c = false) ∧
    (n = "usepackage".toList → ∃ x, Arg.req x ∈ args)

theorem reqargs_mem {x : Str} : ∀ (args : List Arg), Arg.req x ∈ args → reqargs args ≠ [] := by
  intro args
  induction args with
  | nil => intro h; cases h
  | cons a args ih =>
    intro h
    cases a with
    | req t => simp [reqargs]
    | opt t =>
      simp only [reqargs]
      exact ih (by simpa using h)

theorem preamble_id : ∀ (ps : List Node), ClassOk ps → preamble ps = .ok ps := by
  intro ps
  induction ps with
  | nil => intro _; rfl
  | cons n ps ih =>
    intro h
    have h' := ih (fun m args hm => h m args (by simp [hm]))
    cases n with
    | cmd n args =>
      obtain ⟨h1, h2⟩ := h n args (by simp)
      simp only [preamble]
      by_cases hd : n = "documentclass".toList
      · rw [if_pos hd]
        have : classArgs args = .ok args := by
          rcases h1 hd with ⟨x, rfl⟩ | ⟨o, x, rfl, c, hc, hs⟩
          · rfl
          · have hb : blank o = false := by
              unfold blank
              rw [List.all_eq_false]
              exact ⟨c, hc, by simp [hs]⟩
            simp [classArgs, reqargs, optargs, hb]
        rw [this]
        simp only [h']
      · rw [if_neg hd, if_neg, h']
        rintro ⟨hu, hr⟩
        obtain ⟨x, hx⟩ := h2 hu
        exact reqargs_mem args hx hr
    | _ => simp only [preamble, h']

/-! ## Every text is lines -/

theorem line_of : ∀ (t : Str) (esc : Bool), '\n' ∉ t → ∃ body com, t = body ++ comText com ∧
    (∀ a b, body = a ++ '%' :: b → (a = [] ∧ esc = true) ∨ ∃ a', a = a' ++ ['\\']) ∧
    (com ≠ none → (body = [] → esc = false) ∧ ∀ a, body ≠ a ++ ['\\']) := by
  intro t
  induction t with
  | nil => intro esc _; exact ⟨[], none, rfl, by simp, fun h => absurd rfl h⟩
  | cons x t ih =>
    intro esc h
    by_cases hx : x = '%' ∧ esc = false
    · exact ⟨[], some t, by simp [hx.1], by simp, fun _ => ⟨fun _ => hx.2, by simp⟩⟩
    · obtain ⟨body, com, h1, h2, h3⟩ := ih (x == '\\') (fun hm => h (by simp [hm]))
      refine ⟨x :: body, com, by rw [h1]; rfl, ?_, ?_⟩
      · intro a b hab
        cases a with
        | nil =>
          simp only [List.nil_append, List.cons.injEq] at hab
          left
          refine ⟨rfl, ?_⟩
          cases esc with
          | true => rfl
          | false => exact absurd ⟨hab.1, rfl⟩ hx
        | cons y a =>
          simp only [List.cons_append, List.cons.injEq] at hab
          right
          rcases h2 a b hab.2 with ⟨rfl, e⟩ | ⟨a', rfl⟩
          · exact ⟨[], by rw [← hab.1]; simpa using e⟩
          · exact ⟨y :: a', rfl⟩
      · intro hc
        obtain ⟨h4, h5⟩ := h3 hc
        refine ⟨by simp, ?_⟩
        intro a ha
        cases a with
        | nil =>
          simp only [List.nil_append, List.cons.injEq] at ha
          have := h4 ha.2
          simp [ha.1] at this
        | cons y a =>
          simp only [List.cons_append, List.cons.injEq] at ha
          exact h5 a ha.2

theorem join_split : ∀ (f : Str), joinLines (splitLines f) = f ∧ splitLines f ≠ [] := by
  intro f
  induction f with
  | nil => exact ⟨rfl, by simp [splitLines]⟩
  | cons c f ih =>
    obtain ⟨h1, h2⟩ := ih
    by_cases hc : c = '\n'
    · subst hc
      have : splitLines ('\n' :: f) = [] :: splitLines f := by simp [splitLines]
      rw [this, joinLines_cons h2, h1]
      exact ⟨rfl, by simp⟩
    · cases hs : splitLines f with
      | nil => exact absurd hs h2
      | cons l ls =>
        have : splitLines (c :: f) = (c :: l) :: ls := by simp [splitLines, hc, hs]
        rw [this]
        refine ⟨?_, by simp⟩
        rw [joinLines_tail, List.cons_append, ← joinLines_tail, ← hs, h1]

/-- Every text is a list of lines. -/
theorem every_text (f : Str) : ∃ ls : List Line, ls ≠ [] ∧ (∀ l ∈ ls, l.Valid) ∧ linesText ls = f := by
  have key : ∀ (ts : List Str), (∀ t ∈ ts, '\n' ∉ t) → ∃ ls : List Line, ls.map Line.text = ts ∧ ∀ l ∈ ls, l.Valid := by
    intro ts
    induction ts with
    | nil => intro _; exact ⟨[], rfl, by simp⟩
    | cons t ts ih =>
      intro h
      obtain ⟨ls, h1, h2⟩ := ih (fun x hx => h x (by simp [hx]))
      obtain ⟨body, com, e, h3, h4⟩ := line_of t false (h t (by simp))
      have ht := h t (by simp)
      refine ⟨⟨body, com⟩ :: ls, ?_, ?_⟩
      · rw [List.map_cons, h1, e]; rfl
      · intro l hl
        rcases List.mem_cons.mp hl with rfl | hl
        · refine ⟨fun hm => ht (by rw [e]; simp [hm]), ?_, ?_, fun hc => (h4 hc).2⟩
          · rintro c rfl hm
            exact ht (by rw [e]; simp [hm])
          · intro a b hab
            rcases h3 a b hab with ⟨_, h⟩ | h
            · cases h
            · exact h
        · exact h2 l hl
  obtain ⟨ls, h1, h2⟩ := key (splitLines f) (Verif.TeX.splitLines_lines f)
  refine ⟨ls, ?_, h2, ?_⟩
  · rintro rfl
    exact (join_split f).2 h1.symm
  · unfold linesText
    rw [h1]
    exact (join_split f).1

/-! ## The file -/

def emptyLine : Line := ⟨[], none⟩

/-- The lines that make up the preamble: the new line after its last line belongs to it. -/
def preLines (pre : List Line) : List Line := if pre = [] then [emptyLine, emptyLine] else pre ++ [emptyLine]

theorem marked_ne {name : Str} {k : Nat} {ls : List Line} (h : ls ≠ []) : marked name k ls ≠ [] := by
  cases ls with
  | nil => exact absurd rfl h
  | cons l ls => simp [marked]

theorem preLines_text (name : Str) (k : Nat) (pre : List Line) :
    joinLines (marked name k pre) ++ ['\n'] = joinLines (marked name k (preLines pre)) := by
  unfold preLines
  split_ifs with h
  · subst h; rfl
  · rw [marked_append, joinLines_append _ _ (marked_ne h) (by simp [marked])]
    rfl

theorem preLines_comments (pre : List Line) : comments (preLines pre) = comments pre := by
  unfold preLines
  split_ifs with h
  · subst h; rfl
  · rw [comments_append]; simp [comments, emptyLine]

theorem preLines_mem {pre : List Line} {l : Line} (h : l ∈ preLines pre) : l ∈ pre ∨ l = emptyLine := by
  unfold preLines at h
  split_ifs at h
  · right; simpa using h
  · simpa using h

theorem empty_tidy : Tidy [emptyLine] := by
  refine ⟨?_, ?_, ?_, ?_⟩
  · intro l hl
    simp only [List.mem_singleton] at hl
    subst hl
    exact ⟨by simp [emptyLine], by simp [emptyLine], by simp [emptyLine], fun h => absurd rfl h⟩
  · intro l hl hc
    simp only [List.mem_singleton] at hl
    subst hl
    exact absurd rfl hc
  · intro l hl v _ h
    simp only [List.mem_singleton] at hl
    subst hl
    have : "\\begin{".toList ++ v = [] := by simpa [emptyLine] using h
    simp at this
  · intro l hl v _ h
    simp only [List.mem_singleton] at hl
    subst hl
    have : "\\end{".toList ++ v = [] := by simpa [emptyLine] using h
    simp at this

theorem preLines_tidy {pre : List Line} (h : Tidy pre) : Tidy (preLines pre) := by
  have he := empty_tidy
  refine ⟨?_, ?_, ?_, ?_⟩ <;> intro l hl <;> rcases preLines_mem hl with hl | rfl
  · exact h.valid l hl
  · exact he.valid _ (by simp)
  · exact h.args l hl
  · exact he.args _ (by simp)
  · exact h.begins l hl
  · exact he.begins _ (by simp)
  · exact h.ends l hl
  · exact he.ends _ (by simp)

theorem linesText_append {a b : List Line} (ha : a ≠ []) (hb : b ≠ []) :
    linesText (a ++ b) = linesText a ++ '\n' :: linesText b := by
  unfold linesText
  rw [List.map_append, joinLines_append _ _ (by simpa using ha) (by simpa using hb)]

theorem text_lines {l : Line} (h : l.Valid) : '\n' ∉ l.text := by
  unfold Line.text Line.comment
  cases hc : l.com with
  | none => simpa using h.body
  | some c =>
    simp only [comText, List.mem_append, List.mem_cons, not_or]
    exact ⟨h.body, by decide, h.com c hc⟩

theorem body_infix : ∀ (ls : List Line) (l : Line), l ∈ ls → l.body <:+: linesText ls := by
  intro ls
  induction ls with
  | nil => intro l h; cases h
  | cons m ls ih =>
    intro l hl
    unfold linesText
    rw [List.map_cons, joinLines_tail]
    rcases List.mem_cons.mp hl with rfl | hl
    · exact ⟨[], l.comment ++ tailText (ls.map Line.text), by simp [Line.text]⟩
    · have hne : ls ≠ [] := List.ne_nil_of_mem hl
      obtain ⟨x, y, h⟩ := ih l hl
      refine ⟨m.text ++ '\n' :: x, y, ?_⟩
      unfold tailText
      rw [if_neg (by simpa using hne)]
      unfold linesText at h
      rw [← h]
      simp

/-- One part of the file: it is parsed, and with its comments put back it prints as it stood. -/
theorem part_ok {name : Str} (hn : NameOk name) {cs : List Str} (hp : Percents cs) {ls : List Line} {k : Nat}
    (hno : ∀ l ∈ ls, ¬ name <:+: l.body) (ht : Tidy ls)
    (hcs : ∀ i, i < (comments ls).length → cs[k + i]? = (comments ls)[i]?) (hk : k + (comments ls).length ≤ cs.length)
    (htame : Tame (joinLines (marked name k ls))) (hbr : NoBraceMark name (joinLines (marked name k ls))) :
    ∃ ns l, toNodes (joinLines (marked name k ls)) = .ok ns ∧ addinL name cs ns = .ok l ∧
      printL (tidy none none l) = linesText ls := by
  obtain ⟨ns, h1, h2⟩ := Verif.TeX.roundtrip _ htame
  have hm := tidy_marked hn hno ht hk
  obtain ⟨h3, h4⟩ := parse_restored hn cs _ _ [] ns (Nat.lt_succ_self _) htame hbr hm h1
  obtain ⟨l, h5, _, h6⟩ := addinL_ok hn hp ns [] (Verif.TeX.text_single_line _ _ h1) h4 (by rw [h2]; exact hm)
  exact ⟨ns, l, h1, h5, by rw [h6]; exact h3.unique (lines_restored hn ls k hno hcs)⟩

/-- The texts for which loading and saving is the identity: preamble lines `pre`, content lines `con`. -/
structure Loadable (pre con : List Line) : Prop where
  tidyPre : Tidy pre
  tidyCon : Tidy con
  /-- the preamble ends at the first line with `\begin{document}` outside of comments -/
  noDoc : ∀ l ∈ pre, ¬ "\\begin{document}".toList <:+: l.body
  doc : ∃ d r, con = d :: r ∧ "\\begin{document}".toList <:+: d.body
  /-- with their comments replaced, both parts are texts `text_to_nodes` keeps (C38) -/
  tamePre : ∀ name, IsName (linesText (pre ++ con)) name → Tame (joinLines (marked name 0 (preLines pre)))
  tameCon : ∀ name, IsName (linesText (pre ++ con)) name → Tame (joinLines (marked name (comments pre).length con))
  /-- no comment stands directly after an opening brace (and white space) -/
  bracePre : ∀ name, IsName (linesText (pre ++ con)) name → NoBraceMark name (joinLines (marked name 0 (preLines pre)))
  braceCon : ∀ name, IsName (linesText (pre ++ con)) name → NoBraceMark name (joinLines (marked name (comments pre).length con))
  classOk : ∀ name ps, IsName (linesText (pre ++ con)) name → toNodes (joinLines (marked name 0 (preLines pre))) = .ok ps → ClassOk ps

/-- C62, with or without lines in the preamble. -/
theorem load_text (pre con : List Line) (h : Loadable pre con) :
    ∃ F, parseFile (linesText (pre ++ con)) = .ok F ∧ fileText F = linesText (preLines pre) ++ linesText con := by
  obtain ⟨name, hc, hn⟩ := name_found (linesText (pre ++ con))
  have hok := hn.ok
  have hno : ∀ l ∈ pre ++ con, ¬ name <:+: l.body := fun l hl hi => hn.fresh (hi.trans (body_infix _ l hl))
  obtain ⟨d, r, rfl, hd⟩ := h.doc
  have hvalid : ∀ l ∈ pre ++ d :: r, l.Valid := by
    intro l hl
    rcases List.mem_append.mp hl with hl | hl
    · exact h.tidyPre.valid l hl
    · exact h.tidyCon.valid l hl
  have hsplit : splitLines (linesText (pre ++ d :: r)) = (pre ++ d :: r).map Line.text := by
    refine split_join _ (by simp) ?_
    intro t ht
    obtain ⟨l, hl, rfl⟩ := List.mem_map.mp ht
    exact text_lines (hvalid l hl)
  have hcs : comments (pre ++ d :: r) = comments (preLines pre) ++ comments (d :: r) := by
    rw [comments_append, preLines_comments]
  have hnoE : ¬ name <:+: ([] : Str) := by
    obtain ⟨n, rfl⟩ := hok.head
    simp
  obtain ⟨ps, p, a1, a2, a3⟩ := part_ok hok (cs := comments (pre ++ d :: r)) (comments_percent _) (ls := preLines pre) (k := 0)
    (fun l hl => by
      rcases preLines_mem hl with hl | rfl
      · exact hno l (by simp [hl])
      · exact hnoE)
    (preLines_tidy h.tidyPre)
    (fun i hi => by rw [hcs, Nat.zero_add, List.getElem?_append_left hi])
    (by rw [hcs, List.length_append]; omega) (h.tamePre name hn) (h.bracePre name hn)
  obtain ⟨ns, c, b1, b2, b3⟩ := part_ok hok (cs := comments (pre ++ d :: r)) (comments_percent _) (ls := d :: r) (k := (comments pre).length)
    (fun l hl => hno l (List.mem_append.mpr (.inr hl))) h.tidyCon
    (fun i hi => by rw [comments_append, List.getElem?_append_right (by omega)]; congr 1; omega)
    (by rw [comments_append, List.length_append]) (h.tameCon name hn) (h.braceCon name hn)
  refine ⟨⟨tidy none none p, tidy none none c⟩, ?_, ?_⟩
  · unfold parseFile
    rw [hc]
    simp only
    rw [hsplit, markLines_marked name _ 0 hvalid, splitDoc_found hok d r hd pre 0 h.noDoc]
    simp only [Nat.zero_add]
    unfold build
    rw [preLines_text, a1]
    simp only
    rw [preamble_id ps (h.classOk name ps hn a1)]
    simp only [b1, a2, b2]
  · unfold fileText
    rw [a3, b3]

/-- **C62** Loading a file with a preamble and saving it unchanged writes the text that was read. -/
theorem file_roundtrip (pre con : List Line) (h : Loadable pre con) (hpre : pre ≠ []) :
    ∃ F, parseFile (linesText (pre ++ con)) = .ok F ∧ fileText F = linesText (pre ++ con) := by
  obtain ⟨F, h1, h2⟩ := load_text pre con h
  refine ⟨F, h1, ?_⟩
  obtain ⟨d, r, rfl, _⟩ := h.doc
  rw [h2, linesText_append hpre (by simp), preLines, if_neg hpre, linesText_append hpre (by simp)]
  simp [linesText, joinLines, emptyLine, Line.text, Line.comment]

/-- Without a preamble (the first line has `\begin{document}`) saving adds a new line in front. -/
theorem no_preamble_gains_newline (con : List Line) (h : Loadable [] con) :
    ∃ F, parseFile (linesText con) = .ok F ∧ fileText F = '\n' :: linesText con :=
  load_text [] con h

/-- A text in which `\begin{document}` stands on no line outside of comments is refused. -/
theorem no_document_refused (ls : List Line) (hne : ls ≠ []) (hv : ∀ l ∈ ls, l.Valid)
    (h : ∀ l ∈ ls, ¬ "\\begin{document}".toList <:+: l.body) :
    parseFile (linesText ls) = .error .typeError := by
  obtain ⟨name, hc, hn⟩ := name_found (linesText ls)
  have hsplit : splitLines (linesText ls) = ls.map Line.text := by
    refine split_join _ (by simpa using hne) ?_
    intro t ht
    obtain ⟨l, hl, rfl⟩ := List.mem_map.mp ht
    exact text_lines (hv l hl)
  unfold parseFile
  rw [hc]
  simp only
  rw [hsplit, markLines_marked name _ 0 hv, splitDoc_none hn.ok ls 0 h]

theorem classArgs_error {args : List Arg} (h : classArgs args = .error .hangs) : False := by
  unfold classArgs at h
  split at h
  · cases h
  · split at h
    · cases h
    · split_ifs at h
    · cases h
  · cases h

theorem preamble_error : ∀ (ps : List Node), preamble ps ≠ .error .hangs := by
  intro ps
  induction ps with
  | nil => simp [preamble]
  | cons n ps ih =>
    intro h
    cases n with
    | cmd n args =>
      simp only [preamble] at h
      cases hp : preamble ps with
      | error e =>
        rw [hp] at h
        split_ifs at h
        · cases hc : classArgs args with
          | error e' =>
            rw [hc] at h
            simp only [Except.error.injEq] at h
            exact classArgs_error (by rw [hc, h])
          | ok a =>
            rw [hc] at h
            simp only [Except.error.injEq] at h
            exact ih (by rw [hp, h])
        · simp only [Except.error.injEq, reduceCtorEq] at h
        · simp only [Except.error.injEq] at h
          exact ih (by rw [hp, h])
      | ok r =>
        rw [hp] at h
        split_ifs at h
        · cases hc : classArgs args with
          | error e' =>
            rw [hc] at h
            simp only [Except.error.injEq] at h
            exact classArgs_error (by rw [hc, h])
          | ok a => rw [hc] at h; simp at h
        · simp only [Except.error.injEq, reduceCtorEq] at h
    | _ =>
      simp only [preamble] at h
      cases hp : preamble ps with
      | error e =>
        rw [hp] at h
        simp only [Except.error.injEq] at h
        exact ih (by rw [hp, h])
      | ok r => rw [hp] at h; simp at h

theorem commentNode_error {cs : List Str} {args : List Arg} (h : commentNode cs args = .error .hangs) : False := by
  unfold commentNode at h
  split at h
  · cases h
  · split at h
    · cases h
    · split at h <;> cases h

mutual
theorem addin_error (name : Str) (cs : List Str) : ∀ (n : Node), addin name cs n ≠ .error .hangs
  | .text t => by simp [addin]
  | .newline => by simp [addin]
  | .trailing n c => by simp [addin]
  | .cmd n args => by
    intro h
    simp only [addin] at h
    split_ifs at h
    exact commentNode_error h
  | .env n ns => by
    intro h
    simp only [addin] at h
    have := addinL_error name cs ns
    cases hp : addinL name cs ns with
    | error e => rw [hp] at h this; simp only [Except.error.injEq] at h; rw [h] at this; exact this rfl
    | ok r => rw [hp] at h; cases h
  | .math n ns => by
    intro h
    simp only [addin] at h
    have := addinL_error name cs ns
    cases hp : addinL name cs ns with
    | error e => rw [hp] at h this; simp only [Except.error.injEq] at h; rw [h] at this; exact this rfl
    | ok r => rw [hp] at h; cases h
  | .enc p c ns => by
    intro h
    simp only [addin] at h
    have := addinL_error name cs ns
    cases hp : addinL name cs ns with
    | error e => rw [hp] at h this; simp only [Except.error.injEq] at h; rw [h] at this; exact this rfl
    | ok r => rw [hp] at h; cases h
theorem addinL_error (name : Str) (cs : List Str) : ∀ (ns : List Node), addinL name cs ns ≠ .error .hangs
  | [] => by simp [addinL]
  | n :: ns => by
    intro h
    simp only [addinL] at h
    have h1 := addin_error name cs n
    have h2 := addinL_error name cs ns
    cases hp : addin name cs n with
    | error e => rw [hp] at h h1; simp only [Except.error.injEq] at h; rw [h] at h1; exact h1 rfl
    | ok r =>
      rw [hp] at h
      simp only at h
      cases hq : addinL name cs ns with
      | error e => rw [hq] at h h2; simp only [Except.error.injEq] at h; rw [h] at h2; exact h2 rfl
      | ok r => rw [hq] at h; cases h
end

/-- The search for the name of the command that stands for comments ends, whatever the text. -/
theorem name_terminates (f : Str) : parseFile f ≠ .error .hangs := by
  obtain ⟨name, hc, _⟩ := name_found f
  unfold parseFile
  rw [hc]
  simp only
  generalize markLines name 0 (splitLines f) = ml
  cases hs : splitDoc ml.1 with
  | mk pre con =>
    cases con with
    | none => simp
    | some con =>
      simp only
      unfold build
      cases h1 : toNodes (joinLines pre ++ ['\n']) with
      | error e => simp
      | ok ps =>
        simp only
        cases h2 : preamble ps with
        | error e => simp only; intro h; simp only [Except.error.injEq] at h; exact preamble_error ps (by rw [h2, h])
        | ok ps' =>
          simp only
          cases h3 : toNodes (joinLines con) with
          | error e => simp
          | ok ns =>
            simp only
            cases h4 : addinL name ml.2 ps' with
            | error e => simp only; intro h; simp only [Except.error.injEq] at h; exact addinL_error _ _ ps' (by rw [h4, h])
            | ok p =>
              simp only
              cases h5 : addinL name ml.2 ns with
              | error e => simp only; intro h; simp only [Except.error.injEq] at h; exact addinL_error _ _ ns (by rw [h5, h])
              | ok c => simp

/-! ## A file that is loadable -/

/-- The line of a text. -/
def lineOf (t : Str) : Line :=
  match commentAt false t with
  | some (a, c) => ⟨a, some c.tail⟩
  | none => ⟨t, none⟩

theorem lineOf_valid {t : Str} (h : '\n' ∉ t) : (lineOf t).Valid ∧ (lineOf t).text = t := by
  obtain ⟨body, com, e, h3, h4⟩ := line_of t false h
  have hc := commentAt_valid body false com h3 h4
  rw [← e] at hc
  have hl : lineOf t = ⟨body, com⟩ := by
    unfold lineOf
    cases com with
    | none =>
      rw [hc]
      rw [show t = body by simpa using e]
      rfl
    | some c => rw [hc]; rfl
  rw [hl]
  refine ⟨⟨fun hm => h (by rw [e]; simp [hm]), ?_, ?_, fun hc => (h4 hc).2⟩, e.symm⟩
  · rintro c rfl hm
    exact h (by rw [e]; simp [hm])
  · intro a b hab
    rcases h3 a b hab with ⟨_, h⟩ | h
    · cases h
    · exact h

def openArg : Str → Bool
  | p :: '{' :: v => (isWord p || p == '*' || p == '}' || p == ']') && !v.contains '}'
  | _ => false

def opens (w s : Str) : Bool := w.isPrefixOf s && !(s.drop w.length).contains '}'

def tidyB (l : Line) : Bool :=
  (l.com.isNone || !l.body.tails.any openArg) && !l.body.tails.any (opens "\\begin{".toList) &&
    !l.body.tails.any (opens "\\end{".toList)

theorem opens_sound {w v body : Str} (h : body.tails.any (opens w) = false) (hv : '}' ∉ v) : ¬ (w ++ v) <:+ body := by
  intro hs
  rw [List.any_eq_false] at h
  apply h (w ++ v) ((List.mem_tails _ _).mpr hs)
  simp [opens, hv]

theorem tidyB_sound {ls : List Line} (hv : ∀ l ∈ ls, l.Valid) (h : ls.all tidyB = true) : Tidy ls := by
  have key : ∀ l ∈ ls, (l.com.isNone = true ∨ l.body.tails.any openArg = false) ∧
      l.body.tails.any (opens "\\begin{".toList) = false ∧ l.body.tails.any (opens "\\end{".toList) = false := by
    intro l hl
    have := List.all_eq_true.mp h l hl
    unfold tidyB at this
    simp only [Bool.and_eq_true, Bool.or_eq_true, Bool.not_eq_true'] at this
    exact ⟨this.1.1, this.1.2, this.2⟩
  refine ⟨hv, ?_, fun l hl v hv => opens_sound (key l hl).2.1 hv, fun l hl v hv => opens_sound (key l hl).2.2 hv⟩
  intro l hl hc p v hp hv' hs
  rcases (key l hl).1 with h | h
  · rw [Option.isNone_iff_eq_none] at h
    exact hc h
  · rw [List.any_eq_false] at h
    apply h (p :: '{' :: v) ((List.mem_tails _ _).mpr hs)
    simp only [openArg, Bool.and_eq_true, Bool.or_eq_true, beq_iff_eq, Bool.not_eq_true',
      List.contains_eq_mem, decide_eq_false_iff_not]
    refine ⟨?_, hv'⟩
    rcases hp with h | h | h | h
    · exact .inl (.inl (.inl h))
    · exact .inl (.inl (.inr h))
    · exact .inl (.inr h)
    · exact .inr h

def braceHere (name : Str) : Str → Bool
  | '{' :: l => !(tag name).isPrefixOf (l.dropWhile isSpace)
  | _ => true

theorem braceB_sound {name t : Str} (h : allTails (braceHere name) t = true) : NoBraceMark name t := by
  rintro ws hws ⟨a, b, e⟩
  rw [← e, List.append_assoc] at h
  have h1 := allTails_at _ _ h
  have e2 : ('{' :: ws ++ tag name) ++ b = '{' :: (ws ++ ('\\' :: (name ++ b))) := by simp [tag]
  rw [e2] at h1
  simp only [braceHere] at h1
  rw [dropWhile_at hws (by simp; decide)] at h1
  simp only [Bool.not_eq_true', ← Bool.not_eq_true, List.isPrefixOf_iff_prefix] at h1
  exact h1 ⟨b, by simp [tag]⟩

def samplePre : List Line := ["\\documentclass[12pt]{article}% the class".toList, "% 100 percent".toList,
  "\\usepackage{x}".toList].map lineOf

def sampleCon : List Line := ["\\begin{document} % here".toList, "\\section{A} 5\\% of $x+1$ %% twice %".toList, "".toList,
  "%".toList, "\\begin{quote} q%".toList, "\\end{quote} \\cite[see]{b} {\\bf so".toList, "{very} nice} end% bold".toList, "\\end{document}%last".toList, "% more".toList].map lineOf

theorem sample_name {name : Str} (h : IsName (linesText (samplePre ++ sampleCon)) name) : name = baseName := by
  refine isName_unique h (.inl ⟨rfl, ?_⟩)
  intro hc
  have : contains (linesText (samplePre ++ sampleCon)) baseName = false := by decide +kernel
  rw [contains_iff.mpr hc] at this
  cases this

def classOkB : Node → Bool
  | .cmd n args =>
    (n != "documentclass".toList || decide (args = [.opt "12pt".toList, .req "article".toList])) &&
    (n != "usepackage".toList || decide (args = [.req "x".toList]))
  | _ => true

def classOkAll (r : Except Verif.TeX.Err (List Node)) : Bool :=
  match r with
  | .ok ps => ps.all classOkB
  | .error _ => false

theorem sample_loadable : Loadable samplePre sampleCon := by
  have v1 : ∀ l ∈ samplePre, l.Valid := by
    intro l hl
    obtain ⟨t, ht, rfl⟩ := List.mem_map.mp hl
    refine (lineOf_valid ?_).1
    fin_cases ht <;> decide
  have v2 : ∀ l ∈ sampleCon, l.Valid := by
    intro l hl
    obtain ⟨t, ht, rfl⟩ := List.mem_map.mp hl
    refine (lineOf_valid ?_).1
    fin_cases ht <;> decide
  refine ⟨tidyB_sound v1 (by decide +kernel), tidyB_sound v2 (by decide +kernel), ?_, ?_, ?_, ?_, ?_, ?_, ?_⟩
  · have : samplePre.all (fun l => !contains l.body "\\begin{document}".toList) = true := by decide +kernel
    intro l hl hc
    have := List.all_eq_true.mp this l hl
    rw [contains_iff.mpr hc] at this
    cases this
  · refine ⟨lineOf "\\begin{document} % here".toList, _, rfl, contains_iff.mp (by decide +kernel)⟩
  · intro name hn
    rw [sample_name hn]
    exact Verif.TeX.tameB_sound (by decide +kernel)
  · intro name hn
    rw [sample_name hn]
    exact Verif.TeX.tameB_sound (by decide +kernel)
  · intro name hn
    rw [sample_name hn]
    exact braceB_sound (by decide +kernel)
  · intro name hn
    rw [sample_name hn]
    exact braceB_sound (by decide +kernel)
  · intro name ps hn hp
    rw [sample_name hn] at hp
    have : classOkAll (toNodes (joinLines (marked baseName 0 (preLines samplePre)))) = true := by decide +kernel
    rw [hp] at this
    simp only [classOkAll, List.all_eq_true] at this
    intro n args hm
    have := this _ hm
    simp only [classOkB, Bool.and_eq_true, Bool.or_eq_true, bne_iff_ne, ne_eq, decide_eq_true_eq] at this
    refine ⟨fun hn => .inr ⟨_, _, (this.1.resolve_left (fun h => h hn)), '1', by decide, by decide⟩,
      fun hn => ⟨"x".toList, ?_⟩⟩
    rw [this.2.resolve_left (fun h => h hn)]
    simp

example : ∃ F, parseFile (linesText (samplePre ++ sampleCon)) = .ok F ∧
    fileText F = linesText (samplePre ++ sampleCon) :=
  file_roundtrip _ _ sample_loadable (by decide +kernel)

example : parseFile "\\documentclass{a}\n% \\begin{document}\ntext".toList = .error .typeError :=
  no_document_refused (["\\documentclass{a}".toList, "% \\begin{document}".toList, "text".toList].map lineOf) (by decide)
    (by
      intro l hl
      obtain ⟨t, ht, rfl⟩ := List.mem_map.mp hl
      refine (lineOf_valid ?_).1
      fin_cases ht <;> decide)
    (by
      have : (["\\documentclass{a}".toList, "% \\begin{document}".toList, "text".toList].map lineOf).all
        (fun l => !contains l.body "\\begin{document}".toList) = true := by decide +kernel
      intro l hl hc
      have := List.all_eq_true.mp this l hl
      rw [contains_iff.mpr hc] at this
      cases this)

/-! ## Counterexamples: files that saving changes -/

/-- What loading and saving gives. -/
def saved (s : String) : Except Err String :=
  match parseFile s.toList with
  | .ok F => .ok (String.ofList (fileText F))
  | .error e => .error e

instance : DecidableEq (Except Err String) := fun
  | .ok a, .ok b => decidable_of_iff (a = b) (by simp)
  | .error a, .error b => decidable_of_iff (a = b) (by simp)
  | .ok _, .error _ => .isFalse (by simp)
  | .error _, .ok _ => .isFalse (by simp)

/-- A comment inside an argument is replaced by a command that is nowhere defined. -/
theorem comment_in_argument_lost : ¬ (saved "\\documentclass{a}\n\\begin{document}\n\\title{A %c\nb}\n\\end{document}"
    = .ok "\\documentclass{a}\n\\begin{document}\n\\title{A %c\nb}\n\\end{document}") := by decide +kernel

theorem comment_in_argument_text : saved "\\documentclass{a}\n\\begin{document}\n\\title{A %c\nb}\n\\end{document}"
    = .ok "\\documentclass{a}\n\\begin{document}\n\\title{A \\astppubcomment{0}\nb}\n\\end{document}" := by decide +kernel

/-- So is a comment after an opening brace. -/
theorem comment_after_brace_lost : saved "\\documentclass{a}\n\\begin{document}\n{% c\n x}\n\\end{document}"
    = .ok "\\documentclass{a}\n\\begin{document}\n{\\astppubcomment{0}\n x}\n\\end{document}" := by decide +kernel

/-- Blank options of `\documentclass` are dropped. -/
theorem blank_options_dropped : saved "\\documentclass[]{a}\n\\begin{document}\n\\end{document}"
    = .ok "\\documentclass{a}\n\\begin{document}\n\\end{document}" := by decide +kernel

/-- Its arguments are put in the usual order. -/
theorem class_reordered : saved "\\documentclass{a}[b]\n\\begin{document}\n\\end{document}"
    = .ok "\\documentclass[b]{a}\n\\begin{document}\n\\end{document}" := by decide +kernel

/-- A comment among the options makes the file unreadable. -/
theorem comment_in_options_refused : saved "\\documentclass[%\na]{b}\n\\begin{document}\n x\n\\end{document}"
    = .error .indexError := by decide +kernel

/-- A new line appears before a file without preamble. -/
theorem leading_newline : saved "\\begin{document}\n x\n\\end{document}"
    = .ok "\n\\begin{document}\n x\n\\end{document}" := by decide +kernel

/-- Texts in which the first choices of the name occur. -/
theorem other_name : saved "\\documentclass{b}\n astppubcomment0 astppubcomment % u\n\\begin{document}\n x\n\\end{document}"
    = .ok "\\documentclass{b}\n astppubcomment0 astppubcomment % u\n\\begin{document}\n x\n\\end{document}" := by decide +kernel

end Verif.TeXFile
