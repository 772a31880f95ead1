import Verif.TeXFile
import Verif.TeXDecl
import Verif.TeXLines

/-!
# Loading and saving a TeX file (C62): lemmas about the marked text
-/

namespace Verif.TeXFile

open Verif.TeX (Str Node Arg Item Match isSpace isWord printArg splitLines findSub toNodes parse command
  commandSplit chunkItems firstItems fixLeftRight leftRight encLoop deleteAll finish lineNodes envSplit envAt
  matchNode mkArgs ArgBefore Basic DollarsOk Plain Tame Inner Enc Spaces NoCmd asCommand Groups itemStr itemsStr Good isLR envCat ParsesBelow
  endTag group groups argsAt nameEnd nameLoop upTo)

/-! ### Marks -/

/-- What the parser needs to know of the name of the command that stands for comments. -/
structure NameOk (name : Str) : Prop where
  head : ∃ n, name = 'a' :: n
  word : ∀ c ∈ name, isWord c = true

def tag (name : Str) : Str := '\\' :: name

theorem str_digit (k : Nat) : ∀ c ∈ str k, c.isDigit = true := by
  intro c hc
  exact Nat.isDigit_of_mem_toDigits (by norm_num) (by norm_num) hc

theorem isWord_ne {c : Char} (h : isWord c = true) : c ≠ '\\' ∧ c ≠ '{' ∧ c ≠ '[' ∧ c ≠ '*' ∧ c ≠ '\n' ∧
    c ≠ ']' ∧ c ≠ '}' ∧ c ≠ '$' := by
  refine ⟨?_, ?_, ?_, ?_, ?_, ?_, ?_, ?_⟩ <;> (rintro rfl; revert h; decide)

theorem digit_word {c : Char} (h : c.isDigit = true) : isWord c = true := by
  unfold Char.isDigit at h
  unfold isWord
  simp only [Bool.and_eq_true, decide_eq_true_eq] at h
  have h1 : '0' ≤ c := h.1
  have h2 : c ≤ '9' := h.2
  simp [h1, h2]

theorem str_ne (k : Nat) : str k ≠ [] := Nat.toDigits_ne_nil

/-- The characters of a mark after its first. -/
theorem mark_chars {name : Str} (hn : NameOk name) {k : Nat} {c : Char} (h : c ∈ (mark name k).tail) :
    isWord c = true ∨ c = '{' ∨ c = '}' := by
  simp only [mark, List.tail_cons, List.mem_append, List.mem_cons, List.cons_append, List.not_mem_nil, or_false] at h
  rcases h with (h | h | h) | h
  · exact .inl (hn.word c h)
  · exact .inr (.inl h)
  · exact .inl (digit_word (str_digit k c h))
  · exact .inr (.inr h)

theorem upTo_word {u r : Str} (hu : ∀ c ∈ u, isWord c = true) : upTo '}' (u ++ '}' :: r) = some (u, r) := by
  induction u with
  | nil => simp [upTo]
  | cons c u ih =>
    have hc := isWord_ne (hu c (by simp))
    simp only [List.cons_append, upTo]
    rw [if_neg hc.2.2.2.2.2.2.1, if_neg hc.2.2.2.2.1, ih (fun c h => hu c (by simp [h]))]
    rfl

/-- Empty or beginning with a new line. -/
def NL (s : Str) : Prop := s = [] ∨ ∃ r, s = '\n' :: r

theorem NL.left {a b : Str} (h : NL (a ++ b)) : NL a := by
  rcases h with h | ⟨r, h⟩
  · left; exact (List.append_eq_nil_iff.mp h).1
  · cases a with
    | nil => exact .inl rfl
    | cons c a => right; simp only [List.cons_append, List.cons.injEq] at h; exact ⟨a, by rw [h.1]⟩

theorem group_nl {b : Str} (h : NL b) : group b = none := by
  rcases h with rfl | ⟨r, rfl⟩ <;> rfl

theorem argsAt_mark (k : Nat) {b : Str} (hb : NL b) :
    argsAt ('{' :: str k ++ '}' :: b) = some ('{' :: str k ++ ['}'], b) := by
  have hg : group ('{' :: str k ++ '}' :: b) = some ('{' :: str k ++ ['}'], b) := by
    show (upTo '}' (str k ++ '}' :: b)).map _ = _
    rw [upTo_word (fun c h => digit_word (str_digit k c h))]
    rfl
  unfold argsAt
  rw [hg]
  simp only
  have : ('{' :: str k ++ '}' :: b).length = (str k ++ '}' :: b).length + 1 := by simp
  rw [this]
  unfold groups
  rw [hg]
  simp only
  have h2 : groups (str k ++ '}' :: b).length b = ([], b) := by
    cases hl : (str k ++ '}' :: b).length with
    | zero => rfl
    | succ m => unfold groups; rw [group_nl hb]
  rw [h2]
  simp

theorem nameLoop_mark (k : Nat) {b : Str} (hb : NL b) : ∀ (n acc : Str), (∀ c ∈ n, isWord c = true) →
    nameLoop acc (n ++ '{' :: str k ++ '}' :: b) = some (acc ++ n, '{' :: str k ++ ['}'], b) := by
  intro n
  induction n with
  | nil =>
    intro acc _
    have : nameEnd acc ('{' :: (str k ++ '}' :: b)) = some (acc, '{' :: str k ++ ['}'], b) := by
      unfold nameEnd
      split
      · rename_i heq; simp at heq
      · have := argsAt_mark k hb
        simp only [List.cons_append] at this
        rw [this]; rfl
    simp only [List.nil_append, List.cons_append, List.append_nil]
    unfold nameLoop
    rw [this]
    rfl
  | cons c n ih =>
    intro acc hn
    have hc := isWord_ne (hn c (by simp))
    have hw := hn c (by simp)
    have he : nameEnd acc (c :: (n ++ '{' :: str k ++ '}' :: b)) = none := by
      have ha : argsAt (c :: (n ++ '{' :: str k ++ '}' :: b)) = none := by
        unfold argsAt
        have hg : group (c :: (n ++ '{' :: str k ++ '}' :: b)) = none := by
          simp only [group]; rw [if_neg hc.2.1, if_neg hc.2.2.1]
        rw [hg]
        simp [hw]
      unfold nameEnd
      split
      · rename_i heq
        simp only [List.cons.injEq] at heq
        exact absurd heq.1 hc.2.2.2.1
      · rw [ha]; rfl
    show nameLoop acc (c :: (n ++ '{' :: str k ++ '}' :: b)) = _
    unfold nameLoop
    rw [he]
    simp only
    rw [if_neg hc.2.2.2.2.1, ih (acc ++ [c]) (fun c h => hn c (by simp [h]))]
    simp

/-- A mark at the end of a line is a command. -/
theorem command_mark {name : Str} (hn : NameOk name) (k : Nat) {b : Str} (hb : NL b) :
    command (mark name k ++ b) = some (name, '{' :: str k ++ ['}'], b) := by
  obtain ⟨n, rfl⟩ := hn.head
  have h := nameLoop_mark k hb n ['a'] (fun c h => hn.word c (by simp [h]))
  have e : mark ('a' :: n) k ++ b = '\\' :: 'a' :: (n ++ '{' :: str k ++ '}' :: b) := by simp [mark]
  rw [e]
  show (if isWord 'a' = true then nameLoop ['a'] (n ++ '{' :: str k ++ '}' :: b) else none) = _
  rw [if_pos (show isWord 'a' = true by decide)]
  exact h

theorem mkArgs_mark (k : Nat) : mkArgs ('{' :: str k ++ ['}']) = .ok [.req (str k)] := by
  have hs : ∀ u : Str, (∀ c ∈ u, isWord c = true) → Verif.TeX.argSplit (u ++ ['}']) = [u, []] := by
    intro u
    induction u with
    | nil => intro _; rfl
    | cons c u ih =>
      intro hu
      have hc := isWord_ne (hu c (by simp))
      simp only [List.cons_append, Verif.TeX.argSplit]
      have : ((c == '}' || c == ']') && Verif.TeX.sepAfter (u ++ ['}'])) = false := by
        have h1 : (c == '}') = false := by simpa using hc.2.2.2.2.2.2.1
        have h2 : (c == ']') = false := by simpa using hc.2.2.2.2.2.1
        rw [h1, h2]; rfl
      rw [this, if_neg (by simp), ih (fun c h => hu c (by simp [h]))]
  unfold mkArgs
  rw [if_neg (by simp)]
  have : Verif.TeX.argSplit ('{' :: str k ++ ['}']) = ['{' :: str k, []] := by
    simp only [List.cons_append, Verif.TeX.argSplit]
    have : (('{' == '}' || '{' == ']') && Verif.TeX.sepAfter (str k ++ ['}'])) = false := by rfl
    rw [this, if_neg (by simp), hs _ (fun c h => digit_word (str_digit k c h))]
  simp only [this]
  simp [Verif.TeX.mkArgL, Verif.TeX.mkArg]

theorem mark_split {name : Str} (k : Nat) : mark name k = tag name ++ ('{' :: str k ++ ['}']) := by
  simp [mark, tag]

theorem digits_close {u v r s : Str} (hu : ∀ c ∈ u, isWord c = true) (hv : ∀ c ∈ v, isWord c = true)
    (h : u ++ '}' :: r = v ++ '}' :: s) : u = v ∧ r = s := by
  induction u generalizing v with
  | nil =>
    cases v with
    | nil => simpa using h
    | cons c v =>
      simp only [List.nil_append, List.cons_append, List.cons.injEq] at h
      exact absurd h.1.symm (isWord_ne (hv c (by simp))).2.2.2.2.2.2.1
  | cons c u ih =>
    cases v with
    | nil =>
      simp only [List.nil_append, List.cons_append, List.cons.injEq] at h
      exact absurd h.1 (isWord_ne (hu c (by simp))).2.2.2.2.2.2.1
    | cons d v =>
      simp only [List.cons_append, List.cons.injEq] at h
      obtain ⟨h1, h2⟩ := ih (fun c h => hu c (by simp [h])) (fun c h => hv c (by simp [h])) h.2
      exact ⟨by rw [h.1, h1], h2⟩

/-- Marks are determined by the text. -/
theorem mark_inj {name : Str} {k k' : Nat} {r s : Str} (h : mark name k ++ r = mark name k' ++ s) :
    k = k' ∧ r = s := by
  simp only [mark, List.cons_append, List.append_assoc, List.cons.injEq, true_and,
    List.append_cancel_left_eq, List.nil_append] at h
  obtain ⟨h1, h2⟩ := digits_close (fun c h => digit_word (str_digit k c h))
    (fun c h => digit_word (str_digit k' c h)) h
  refine ⟨?_, h2⟩
  have := congrArg (fun l => Nat.ofDigitChars 10 l 0) h1
  simpa [str, Nat.ofDigitChars_toDigits] using this

/-! ### Texts with marks -/

/-- No argument in curly brackets is open on the last line of the text, and no name of an environment at
its end. -/
structure Closed (a : Str) : Prop where
  arg : ∀ p v, ArgBefore p → '}' ∉ v → '\n' ∉ v → ¬ (p :: '{' :: v) <:+ a
  begins : ∀ v, '}' ∉ v → ¬ ("\\begin{".toList ++ v) <:+ a
  ends : ∀ v, '}' ∉ v → ¬ ("\\end{".toList ++ v) <:+ a

theorem Closed.of_append {x a : Str} (h : Closed (x ++ a)) : Closed a where
  arg p v h1 h2 h3 h4 := h.arg p v h1 h2 h3 (h4.trans (List.suffix_append _ _))
  begins v h1 h2 := h.begins v h1 (h2.trans (List.suffix_append _ _))
  ends v h1 h2 := h.ends v h1 (h2.trans (List.suffix_append _ _))

/-- In the text `txt`, followed by `ctx`, the command for comments occurs only as the mark of one of
`m` comments, at the end of a line and not inside an argument. -/
def Marked (name : Str) (m : Nat) (txt ctx : Str) : Prop :=
  ∀ a b, txt = a ++ b → b ≠ [] → tag name <+: b ++ ctx →
    (∃ k b', k < m ∧ b = mark name k ++ b' ∧ NL (b' ++ ctx)) ∧ Closed a

/-- `Marked` for a part that is not followed by a character of a mark. -/
theorem Marked.part {name : Str} (hn : NameOk name) {m : Nat} {x t y ctx : Str}
    (h : Marked name m (x ++ t ++ y) ctx) (hy : y = [] ∨ ∃ c r, y = c :: r ∧ (c = '\\' ∨ c = '$')) :
    Marked name m t (y ++ ctx) := by
  rintro a b rfl hb ht
  obtain ⟨⟨k, b', hk, he, hl⟩, hc⟩ := h (x ++ a) (b ++ y) (by simp) (by simp [hb]) (by simpa using ht)
  refine ⟨?_, hc.of_append⟩
  rcases hy with rfl | ⟨c, r, rfl, hcs⟩
  · exact ⟨k, b', hk, by simpa using he, by simpa using hl⟩
  · rcases List.append_eq_append_iff.mp he with ⟨w, h1, h2⟩ | ⟨w, h1, h2⟩
    · cases w with
      | nil => exact ⟨k, [], hk, by simpa using h1.symm, by
          simp only [List.nil_append] at h2 ⊢; rw [h2]; exact hl⟩
      | cons d w =>
        exfalso
        simp only [List.cons_append, List.cons.injEq] at h2
        obtain ⟨rfl, -⟩ := h2
        cases b with
        | nil => exact hb rfl
        | cons e b =>
          have : c ∈ (mark name k).tail := by rw [h1]; simp
          rcases mark_chars hn this with h | rfl | rfl
          · have := isWord_ne h
            rcases hcs with rfl | rfl
            · exact this.1 rfl
            · exact this.2.2.2.2.2.2.2 rfl
          · rcases hcs with h | h <;> exact absurd h (by decide)
          · rcases hcs with h | h <;> exact absurd h (by decide)
    · refine ⟨k, w, hk, h1, ?_⟩
      rw [h2] at hl
      simpa using hl

theorem Marked.suffix {name : Str} (hn : NameOk name) {m : Nat} {x t ctx : Str}
    (h : Marked name m (x ++ t) ctx) : Marked name m t ctx := by
  have : Marked name m (x ++ t ++ []) ctx := by simpa using h
  simpa using this.part hn (.inl rfl)

/-- The command for comments does not begin anywhere in `a`, which is followed by `ctx`. -/
def NoTag (name ctx : Str) : Str → Prop
  | [] => True
  | c :: a => ¬ tag name <+: c :: (a ++ ctx) ∧ NoTag name ctx a

theorem NoTag.append {name ctx a b : Str} (ha : NoTag name (b ++ ctx) a) (hb : NoTag name ctx b) :
    NoTag name ctx (a ++ b) := by
  induction a with
  | nil => exact hb
  | cons c a ih => exact ⟨by simpa using ha.1, ih ha.2⟩

theorem NoTag.not_infix {name ctx a : Str} (h : NoTag name ctx a) : ¬ tag name <:+: a := by
  induction a with
  | nil => intro h; simp [tag] at h
  | cons c a ih =>
    intro hi
    rcases List.infix_cons_iff.mp hi with h1 | h1
    · exact h.1 (h1.trans (List.prefix_append _ _))
    · exact ih h.2 h1

theorem noTag_of {name ctx a : Str} (h : '\\' ∉ a) : NoTag name ctx a := by
  induction a with
  | nil => trivial
  | cons c a ih =>
    refine ⟨?_, ih (fun hm => h (by simp [hm]))⟩
    rintro ⟨r, hr⟩
    simp only [tag, List.cons_append, List.cons.injEq] at hr
    exact h (List.mem_cons.mpr (.inl hr.1))

/-- Inside an argument there is no mark. -/
theorem noTag_curly {name : Str} {m : Nat} {s ctx : Str} (u : Str) : ∀ (x v : Str) (p : Char),
    Marked name m (x ++ p :: '{' :: v ++ u ++ s) ctx → ArgBefore p → '}' ∉ v → '}' ∉ u → '\n' ∉ v → '\n' ∉ u →
    NoTag name (s ++ ctx) u := by
  induction u with
  | nil => intros; trivial
  | cons c u ih =>
    intro x v p hm hp hv hu hv' hu'
    refine ⟨?_, ?_⟩
    · intro ht
      have := (hm (x ++ p :: '{' :: v) (c :: u ++ s) (by simp) (by simp) (by simpa using ht)).2
      exact this.arg p v hp hv hv' ⟨x, rfl⟩
    · refine ih x (v ++ [c]) p (by simpa using hm) hp ?_ (fun h => hu (by simp [h])) ?_ (fun h => hu' (by simp [h]))
      · simp only [List.mem_append, List.mem_singleton, not_or]
        exact ⟨hv, fun h => hu (List.mem_cons.mpr (.inl h))⟩
      · simp only [List.mem_append, List.mem_singleton, not_or]
        exact ⟨hv', fun h => hu' (List.mem_cons.mpr (.inl h))⟩

/-- Inside the name of an environment there is no mark. -/
theorem noTag_name {name : Str} {m : Nat} {s ctx : Str} (u : Str) : ∀ (x v w : Str),
    w = "\\begin{".toList ∨ w = "\\end{".toList →
    Marked name m (x ++ w ++ v ++ u ++ s) ctx → '}' ∉ v → '}' ∉ u → NoTag name (s ++ ctx) u := by
  induction u with
  | nil => intros; trivial
  | cons c u ih =>
    intro x v w hw hm hv hu
    refine ⟨?_, ?_⟩
    · intro ht
      have := (hm (x ++ w ++ v) (c :: u ++ s) (by simp) (by simp) (by simpa using ht)).2
      rcases hw with rfl | rfl
      · exact this.begins v hv ⟨x, by simp⟩
      · exact this.ends v hv ⟨x, by simp⟩
    · refine ih x (v ++ [c]) w hw (by simpa using hm) ?_ (fun h => hu (by simp [h]))
      simp only [List.mem_append, List.mem_singleton, not_or]
      exact ⟨hv, fun h => hu (List.mem_cons.mpr (.inl h))⟩

/-- In an argument in square brackets, which ends on its line, there is no mark. -/
theorem noTag_square {name : Str} (hn : NameOk name) {m : Nat} {s ctx : Str} (u : Str) : ∀ (x : Str),
    Marked name m (x ++ u ++ ']' :: s) ctx → '\n' ∉ u → NoTag name (']' :: s ++ ctx) u := by
  induction u with
  | nil => intros; trivial
  | cons c u ih =>
    intro x hm hl
    refine ⟨?_, ih (x ++ [c]) (by simpa using hm) (fun h => hl (by simp [h]))⟩
    intro ht
    obtain ⟨k, b', _, he, hb⟩ := (hm x (c :: u ++ ']' :: s) (by simp) (by simp) (by simpa using ht)).1
    rcases List.append_eq_append_iff.mp he with ⟨w, h1, h2⟩ | ⟨w, h1, h2⟩
    · cases w with
      | nil =>
        simp only [List.nil_append] at h2
        rw [← h2] at hb
        rcases hb with h | ⟨r, h⟩
        · simp at h
        · simp at h
      | cons d w =>
        simp only [List.cons_append, List.cons.injEq] at h2
        obtain ⟨rfl, -⟩ := h2
        have : ']' ∈ (mark name k).tail := by rw [h1]; simp
        rcases mark_chars hn this with h | h | h
        · exact (isWord_ne h).2.2.2.2.2.1 rfl
        · exact absurd h (by decide)
        · exact absurd h (by decide)
    · rw [h2] at hb
      cases w with
      | nil =>
        rcases hb with h | ⟨r, h⟩
        · simp at h
        · simp at h
      | cons d w =>
        rcases hb with h | ⟨r, h⟩
        · simp at h
        · simp only [List.cons_append, List.cons.injEq] at h
          apply hl
          rw [h1, h.1]
          simp

theorem noTag_groups {name : Str} (hn : NameOk name) {m : Nat} {s ctx A : Str} (h : Groups A) :
    ∀ (x : Str) (p : Char), Marked name m (x ++ p :: A ++ s) ctx → ArgBefore p → '\n' ∉ A →
    NoTag name (s ++ ctx) A := by
  induction h with
  | nil => intros; trivial
  | curly u B hu hB ih =>
    intro x p hm hp hl
    have hB' := ih (x ++ p :: '{' :: u) '}' (by simpa using hm) (by unfold ArgBefore; simp)
      (fun h => hl (by simp [h]))
    have h1 : NoTag name ('}' :: B ++ s ++ ctx) u := noTag_curly (s := '}' :: B ++ s) u x [] p (by simpa using hm)
      hp (by simp) hu (by simp) (fun h => hl (by simp [h]))
    have h2 : NoTag name (s ++ ctx) ('}' :: B) := ⟨by
      rintro ⟨r, hr⟩; simp [tag] at hr, hB'⟩
    have h3 : NoTag name (s ++ ctx) (u ++ '}' :: B) := NoTag.append (by simpa using h1) h2
    exact ⟨by rintro ⟨r, hr⟩; simp [tag] at hr, by simpa using h3⟩
  | square u B hu hB ih =>
    intro x p hm hp hl
    have hB' := ih (x ++ p :: '[' :: u) ']' (by simpa using hm) (by unfold ArgBefore; simp)
      (fun h => hl (by simp [h]))
    have h1 : NoTag name (']' :: (B ++ s) ++ ctx) u := noTag_square hn (s := B ++ s) u (x ++ [p, '['])
      (by simpa using hm) (fun h => hl (by simp [h]))
    have h2 : NoTag name (s ++ ctx) (']' :: B) := ⟨by
      rintro ⟨r, hr⟩; simp [tag] at hr, hB'⟩
    have h3 : NoTag name (s ++ ctx) (u ++ ']' :: B) := NoTag.append (by simpa using h1) h2
    exact ⟨by rintro ⟨r, hr⟩; simp [tag] at hr, by simpa using h3⟩

/-! ### Restoring the comments in a text -/

/-- `s` is the text `a` (followed by `ctx`) with the comments `cs` in the place of their marks. -/
inductive Restored (name : Str) (cs : List Str) (ctx : Str) : Str → Str → Prop
  | nil : Restored name cs ctx [] []
  | char (c : Char) (a s : Str) : ¬ tag name <+: c :: (a ++ ctx) → Restored name cs ctx a s →
      Restored name cs ctx (c :: a) (c :: s)
  | com (k : Nat) (t a s : Str) : cs[k]? = some t → Restored name cs ctx a s →
      Restored name cs ctx (mark name k ++ a) (t ++ s)

theorem Restored.append {name : Str} {cs : List Str} {ctx a b s t : Str}
    (ha : Restored name cs (b ++ ctx) a s) (hb : Restored name cs ctx b t) :
    Restored name cs ctx (a ++ b) (s ++ t) := by
  induction ha with
  | nil => exact hb
  | char c a s h _ ih => exact .char c _ _ (by simpa using h) ih
  | com k u a s h _ ih =>
    rw [List.append_assoc, List.append_assoc]
    exact .com k u _ _ h ih

theorem NoTag.restored {name : Str} {cs : List Str} {ctx a : Str} (h : NoTag name ctx a) :
    Restored name cs ctx a a := by
  induction a with
  | nil => exact .nil
  | cons c a ih => exact .char c a a h.1 (ih h.2)

theorem Restored.unique {name : Str} {cs : List Str} {ctx a s t : Str}
    (h : Restored name cs ctx a s) (h' : Restored name cs ctx a t) : s = t := by
  induction h generalizing t with
  | nil =>
    generalize e : ([] : Str) = z at h'
    cases h' with
    | nil => rfl
    | char => cases e
    | com k => simp [mark] at e
  | char c a s hc _ ih =>
    generalize e : c :: a = z at h'
    cases h' with
    | nil => cases e
    | char d b u hd hb =>
      simp only [List.cons.injEq] at e
      obtain ⟨rfl, rfl⟩ := e
      rw [ih hb]
    | com k u b v hk hb =>
      exfalso
      apply hc
      have : c :: (a ++ ctx) = tag name ++ (('{' :: str k ++ ['}']) ++ b ++ ctx) := by
        rw [← List.cons_append, e, mark_split]; simp
      rw [this]
      exact List.prefix_append _ _
  | com k u a s hk _ ih =>
    generalize e : mark name k ++ a = z at h'
    cases h' with
    | nil => simp [mark] at e
    | char d b v hd hb =>
      exfalso
      apply hd
      have : d :: (b ++ ctx) = tag name ++ (('{' :: str k ++ ['}']) ++ a ++ ctx) := by
        rw [← List.cons_append, ← e, mark_split]; simp
      rw [this]
      exact List.prefix_append _ _
    | com k' u' b v hk' hb =>
      obtain ⟨rfl, rfl⟩ := mark_inj e
      rw [hk] at hk'
      cases hk'
      rw [ih hb]

/-! ### Restoring the comments in the nodes -/

/-- The comment a mark stands for. -/
def commentText (cs : List Str) (args : List Arg) : Str :=
  match reqargs args with
  | [] => []
  | t :: _ =>
    match readNat t with
    | none => []
    | some k => (cs[k]?).getD []

def restCmd (name : Str) (cs : List Str) (n : Str) (args : List Arg) : Str :=
  if n = name then commentText cs args else '\\' :: n ++ (args.map printArg).flatten

mutual
/-- What is printed for a node once the comments are back. -/
def rest (name : Str) (cs : List Str) : Node → Str
  | .text t => t
  | .newline => ['\n']
  | .env n ns => "\\begin{".toList ++ n ++ ['}'] ++ restL name cs ns ++ ("\\end{".toList ++ n ++ ['}'])
  | .math d ns => (if d then ['$', '$'] else ['$']) ++ restL name cs ns ++ (if d then ['$', '$'] else ['$'])
  | .cmd n args => restCmd name cs n args
  | .trailing n c => '\\' :: n ++ [c]
  | .enc p c ns => '{' :: p ++ Verif.TeX.print c ++ restL name cs ns ++ ['}']
def restL (name : Str) (cs : List Str) : List Node → Str
  | [] => []
  | n :: ns => rest name cs n ++ restL name cs ns
end

theorem rest_env (name : Str) (cs : List Str) (n : Str) (ns : List Node) : rest name cs (.env n ns) =
    "\\begin{".toList ++ n ++ ['}'] ++ restL name cs ns ++ endTag n := rfl
theorem rest_math (name : Str) (cs : List Str) (d : Bool) (ns : List Node) : rest name cs (.math d ns) =
    (if d then ['$', '$'] else ['$']) ++ restL name cs ns ++ (if d then ['$', '$'] else ['$']) := rfl
theorem restL_cons (name : Str) (cs : List Str) (n : Node) (ns : List Node) :
    restL name cs (n :: ns) = rest name cs n ++ restL name cs ns := rfl

theorem restL_append (name : Str) (cs : List Str) (a b : List Node) :
    restL name cs (a ++ b) = restL name cs a ++ restL name cs b := by
  induction a with
  | nil => rfl
  | cons n a ih => simp [restL_cons, ih, List.append_assoc]

mutual
/-- The marks among the nodes are complete, and there are none in declarations. -/
def Marks (name : Str) (m : Nat) : Node → Prop
  | .text _ => True
  | .newline => True
  | .env _ ns => MarksL name m ns
  | .math _ ns => MarksL name m ns
  | .cmd n args => n = name → ∃ k, k < m ∧ args = [.req (str k)]
  | .trailing _ _ => True
  | .enc _ _ ns => MarksL name m ns ∧ ¬ tag name <:+: Verif.TeX.printL ns
def MarksL (name : Str) (m : Nat) : List Node → Prop
  | [] => True
  | n :: ns => Marks name m n ∧ MarksL name m ns
end

theorem marksL_iff (name : Str) (m : Nat) (ns : List Node) : MarksL name m ns ↔ ∀ n ∈ ns, Marks name m n := by
  induction ns with
  | nil => exact ⟨fun _ => by simp, fun _ => trivial⟩
  | cons n ns ih =>
    show Marks name m n ∧ MarksL name m ns ↔ _
    rw [ih]; simp

def itemRest (name : Str) (cs : List Str) : Item → Str
  | .str s => s
  | .cmd n args _ => restCmd name cs n args
  | .node n => rest name cs n

def itemsRest (name : Str) (cs : List Str) (l : List Item) : Str := (l.map (itemRest name cs)).flatten

theorem itemsRest_cons (name : Str) (cs : List Str) (a : Item) (b : List Item) :
    itemsRest name cs (a :: b) = itemRest name cs a ++ itemsRest name cs b := by simp [itemsRest]

theorem itemsRest_append (name : Str) (cs : List Str) (a b : List Item) :
    itemsRest name cs (a ++ b) = itemsRest name cs a ++ itemsRest name cs b := by simp [itemsRest]

theorem itemsRest_nodes (name : Str) (cs : List Str) (ns : List Node) :
    itemsRest name cs (ns.map .node) = restL name cs ns := by
  induction ns with
  | nil => rfl
  | cons n ns ih => rw [List.map_cons, itemsRest_cons, ih, restL_cons]; rfl

/-- The marks among the items are complete, other commands do not contain marks. -/
def ItemMarks (name : Str) (m : Nat) : Item → Prop
  | .str _ => True
  | .cmd n args orig => (n = name → ∃ k, k < m ∧ args = [.req (str k)]) ∧ (n ≠ name → ¬ tag name <:+: orig)
  | .node n => Marks name m n

def ItemsMarks (name : Str) (m : Nat) (l : List Item) : Prop := ∀ it ∈ l, ItemMarks name m it

theorem readNat_str (k : Nat) : readNat (str k) = some k := by
  unfold readNat
  rw [if_pos ⟨str_ne k, List.all_eq_true.mpr (str_digit k)⟩]
  have h : ∀ (l : Str) (n : Nat), (∀ c ∈ l, c.isDigit = true) →
      l.foldl (fun n c => 10 * n + (c.toNat - 48)) n = Nat.ofDigitChars 10 l n := by
    intro l
    induction l with
    | nil => intro n _; rfl
    | cons c l ih =>
      intro n hl
      rw [List.foldl_cons, ih _ (fun c h => hl c (by simp [h])), Nat.ofDigitChars_cons]
      rfl
  rw [h _ _ (str_digit k)]
  simp [str, Nat.ofDigitChars_toDigits]

theorem restCmd_mark {name : Str} {cs : List Str} {k : Nat} {t : Str} (h : cs[k]? = some t) :
    restCmd name cs name [.req (str k)] = t := by
  simp [restCmd, commentText, reqargs, readNat_str, h]

theorem nameLoop_nb {l : Str} : ∀ {acc n a r : Str}, '\\' ∉ acc → nameLoop acc l = some (n, a, r) → '\\' ∉ n := by
  have fin : ∀ {l acc n a r : Str}, '\\' ∉ acc → nameEnd acc l = some (n, a, r) → '\\' ∉ n := by
    intro l acc n a r ha h
    rcases (Verif.TeX.nameEnd_spec h).1 with ⟨rfl, _⟩ | ⟨rfl, _⟩
    · exact ha
    · simp [ha]
  induction l with
  | nil => intro acc n a r ha h; exact fin ha h
  | cons c l ih =>
    intro acc n a r ha h
    unfold nameLoop at h
    cases he : nameEnd acc (c :: l) with
    | some q =>
      rw [he] at h
      simp only [Option.some.injEq] at h
      subst h
      exact fin ha he
    | none =>
      rw [he] at h
      simp only at h
      split_ifs at h
      refine ih ?_ h
      have := (isWord_ne (Verif.TeX.nameEnd_none he)).1
      simp only [List.mem_append, List.mem_singleton, not_or]
      exact ⟨ha, fun h => this h.symm⟩

theorem command_name_nb {l n a r : Str} (h : command l = some (n, a, r)) : '\\' ∉ n := by
  unfold command at h
  split at h
  · split_ifs at h with hw
    refine nameLoop_nb ?_ h
    simp only [List.mem_singleton]
    exact fun h => (isWord_ne hw).1 h.symm
  · cases h

/-- First stage, commands: the comments of a chunk. -/
theorem chunk_restored {name : Str} (hn : NameOk name) (cs : List Str) (txt : Str) (hplain : Basic txt) (f : Nat) :
    ∀ (t ctx : Str) (items : List Item), t.length ≤ f → t <:+: txt → Marked name cs.length t ctx →
    chunkItems (commandSplit f t).1 (commandSplit f t).2 = .ok items →
    Restored name cs ctx t (itemsRest name cs items) ∧ ItemsMarks name cs.length items := by
  induction f with
  | zero =>
    intro t ctx items ht _ _ h
    have : t = [] := List.length_eq_zero_iff.mp (by omega)
    subst this
    simp only [commandSplit, chunkItems, Except.ok.injEq] at h
    subst h
    exact ⟨.nil, by intro it hit; simp only [List.mem_singleton] at hit; subst hit; trivial⟩
  | succ f ih =>
    intro t ctx items ht hi hm h
    unfold commandSplit at h
    cases hc : command t with
    | some q =>
      obtain ⟨n, a, r⟩ := q
      rw [hc] at h
      simp only at h
      obtain ⟨hcmd, w, l', hw, hww⟩ := Verif.TeX.command_spec hc
      have hline := Verif.TeX.command_line t _ hc
      have hr : r <:+: txt := by
        refine List.IsInfix.trans ?_ hi
        exact ⟨'\\' :: n ++ a, [], by rw [hcmd.eq]; simp⟩
      have hlen : r.length ≤ f := by
        have := congrArg List.length hcmd.eq
        simp at this
        omega
      obtain ⟨n', p, hn', hp⟩ := hcmd.name
      have hpl : Basic (p :: a) := by
        refine hplain.infix (List.IsInfix.trans ?_ hi)
        exact ⟨'\\' :: n', r, by rw [hcmd.eq, hn']; simp⟩
      obtain ⟨as, ha1, ha2, ha3⟩ := Verif.TeX.mkArgs_spec hcmd.args p hp hpl
      simp only [chunkItems, ha1] at h
      cases hk : chunkItems (commandSplit f r).1 (commandSplit f r).2 with
      | error e => rw [hk] at h; cases h
      | ok l =>
        rw [hk] at h
        simp only [Except.ok.injEq] at h
        subst h
        have hmr : Marked name cs.length r ctx := by
          have := hcmd.eq
          rw [this] at hm
          exact hm.suffix hn
        obtain ⟨ih1, ih2⟩ := ih r ctx l hlen hr hmr hk
        by_cases htag : tag name <+: t ++ ctx
        · -- the command is a mark
          obtain ⟨⟨k, b', hkm, he, hl⟩, -⟩ := hm [] t rfl (by rw [hw]; simp) htag
          have hcm := command_mark hn k (NL.left hl)
          rw [← he, hc] at hcm
          simp only [Option.some.injEq, Prod.mk.injEq] at hcm
          obtain ⟨rfl, rfl, rfl⟩ := hcm
          have has : as = [.req (str k)] := by
            rw [mkArgs_mark] at ha1
            simpa using ha1.symm
          subst has
          refine ⟨?_, ?_⟩
          · rw [itemsRest_cons, itemsRest_cons]
            simp only [itemRest, List.nil_append]
            rw [restCmd_mark (List.getElem?_eq_getElem hkm), he]
            exact .com k _ _ _ (List.getElem?_eq_getElem hkm) ih1
          · intro it hit
            rcases List.mem_cons.mp hit with rfl | hit
            · trivial
            · rcases List.mem_cons.mp hit with rfl | hit
              · exact ⟨fun _ => ⟨k, hkm, rfl⟩, fun h => absurd rfl h⟩
              · exact ih2 it hit
        · have hne : n ≠ name := by
            rintro rfl
            apply htag
            rw [hcmd.eq]
            exact ⟨a ++ r ++ ctx, by simp [tag]⟩
          have hnb : '\\' ∉ n := by
            exact command_name_nb hc
          have hA : NoTag name (r ++ ctx) a := by
            refine noTag_groups hn (m := cs.length) hcmd.args ('\\' :: n') p ?_ hp hline.2
            have := hcmd.eq
            rw [hn'] at this
            rw [this] at hm
            simpa using hm
          have hall : NoTag name (r ++ ctx) ('\\' :: n ++ a) := by
            have h2 : NoTag name (r ++ ctx) (n ++ a) := NoTag.append (noTag_of hnb) hA
            refine ⟨?_, h2⟩
            intro hh
            apply htag
            rw [hcmd.eq]
            simpa using hh
          refine ⟨?_, ?_⟩
          · rw [itemsRest_cons, itemsRest_cons]
            simp only [itemRest, List.nil_append, restCmd, if_neg hne, ha2]
            have := Restored.append (cs := cs) hall.restored ih1
            rw [hcmd.eq]
            exact this
          · intro it hit
            rcases List.mem_cons.mp hit with rfl | hit
            · trivial
            · rcases List.mem_cons.mp hit with rfl | hit
              · exact ⟨fun h => absurd h hne, fun _ => hA.not_infix⟩
              · exact ih2 it hit
    | none =>
      rw [hc] at h
      simp only at h
      cases t with
      | nil =>
        simp only [chunkItems, Except.ok.injEq] at h
        subst h
        exact ⟨.nil, by intro it hit; simp only [List.mem_singleton] at hit; subst hit; trivial⟩
      | cons c t =>
        have hti : t <:+: txt := List.IsInfix.trans ⟨[c], [], by simp⟩ hi
        have hmt : Marked name cs.length t ctx := Marked.suffix hn (x := [c]) (by simpa using hm)
        have hct : ¬ tag name <+: c :: (t ++ ctx) := by
          intro hh
          obtain ⟨⟨k, b', hkm, he, hl⟩, -⟩ := hm [] (c :: t) rfl (by simp) (by simpa using hh)
          have hcm := command_mark hn k (NL.left hl)
          rw [← he, hc] at hcm
          cases hcm
        cases hq : commandSplit f t with
        | mk ps e =>
          cases ps with
          | nil =>
            simp only [hq, chunkItems, Except.ok.injEq] at h
            subst h
            obtain ⟨i1, i2⟩ := ih t ctx [.str e] (by simpa using ht) hti hmt (by simp [hq, chunkItems])
            refine ⟨?_, by intro it hit; simp only [List.mem_singleton] at hit; subst hit; trivial⟩
            have : itemsRest name cs [.str (c :: e)] = c :: itemsRest name cs [.str e] := by
              simp [itemsRest, itemRest]
            rw [this]
            exact .char c _ _ hct i1
          | cons q ps =>
            obtain ⟨t', n, a⟩ := q
            simp only [hq, chunkItems] at h
            cases hma : mkArgs a with
            | error x => rw [hma] at h; cases h
            | ok args =>
              rw [hma] at h
              simp only at h
              cases hk : chunkItems ps e with
              | error x => rw [hk] at h; cases h
              | ok l =>
                rw [hk] at h
                simp only [Except.ok.injEq] at h
                subst h
                obtain ⟨i1, i2⟩ := ih t ctx (.str t' :: .cmd n args a :: l) (by simpa using ht) hti hmt
                  (by simp [hq, chunkItems, hma, hk])
                refine ⟨?_, ?_⟩
                · have : itemsRest name cs (.str (c :: t') :: .cmd n args a :: l)
                      = c :: itemsRest name cs (.str t' :: .cmd n args a :: l) := by
                    simp [itemsRest, itemRest]
                  rw [this]
                  exact .char c _ _ hct i1
                · intro it hit
                  rcases List.mem_cons.mp hit with rfl | hit
                  · trivial
                  · exact i2 it (by simp [hit])

/-- The two kinds of matches of `_envre` in unproblematic text. -/
theorem envAt_shape {l r : Str} {m : Match} (hl : Basic l) (hdl : DollarsOk l) (h : envAt l = some (m, r)) :
    (∃ N C, m = .env ("\\begin{".toList ++ N ++ ['}'] ++ C ++ endTag N) ∧ '}' ∉ N ∧ ¬ "\\end".toList <:+: N ∧
      DollarsOk C) ∨
    (∃ (d : Bool) (u : Str), m = .math ((if d then ['$', '$'] else ['$']) ++ u ++ (if d then ['$', '$'] else ['$'])) ∧
      '$' ∉ u ∧ (d = false → u ≠ [])) := by
  unfold envAt at h
  split_ifs at h with hb
  · left
    cases hn : Verif.TeX.envName [] (l.drop 7) with
    | none => rw [hn] at h; cases h
    | some q =>
      obtain ⟨N, C, r'⟩ := q
      rw [hn] at h
      simp only [Option.some.injEq, Prod.mk.injEq] at h
      obtain ⟨rfl, rfl⟩ := h
      obtain ⟨h1, h2, l0, hl0⟩ := Verif.TeX.envName_spec (by simp) hn
      rw [List.isPrefixOf_iff_prefix] at hb
      obtain ⟨z, hz⟩ := hb
      have hz' : l.drop 7 = z := by rw [← hz]; rfl
      rw [hz'] at h2
      have hl' : l = "\\begin{".toList ++ N ++ ['}'] ++ C ++ endTag N ++ r' := by
        rw [← hz]
        have : z = N ++ '}' :: C ++ endTag N ++ r' := h2
        rw [this]; simp
      refine ⟨N, C, rfl, h1, ?_, ?_⟩
      · rintro ⟨x, y, hxy⟩
        refine hl.noEndName x (fun hm => h1 (by rw [← hxy]; simp [hm])) ?_
        refine ⟨[], y ++ ['}'] ++ C ++ endTag N ++ r', ?_⟩
        rw [hl', ← hxy]; simp
      · have hCl : C <:+: l := ⟨"\\begin{".toList ++ N ++ ['}'], endTag N ++ r', by rw [hl']; simp⟩
        rcases hdl with hd | ⟨hm, hd⟩
        · exact .inl (fun hi => hd (hi.trans hCl))
        · obtain ⟨hN, hMC⟩ := hd N C h1 ⟨[], r', by rw [hl']; simp⟩
            (Verif.TeX.findSub_first hl0 (by simp [endTag]))
          exact .inr ⟨hMC, fun N' C' h1 h2 h3 => hd N' C' h1 (h2.trans hCl) h3⟩
  · right
    rw [Option.map_eq_some_iff] at h
    obtain ⟨⟨s, r'⟩, h1, h2⟩ := h
    simp only [Prod.mk.injEq] at h2
    obtain ⟨rfl, rfl⟩ := h2
    obtain ⟨_, _, d, u, hud, hu0, hu⟩ := Verif.TeX.mathAt_ok hdl h1
    exact ⟨d, u, by rw [hu], hud, hu0⟩

theorem mathParts_math (d : Bool) {u : Str} (hud : '$' ∉ u) (hu0 : d = false → u ≠ []) :
    Verif.TeX.mathParts ((if d then ['$', '$'] else ['$']) ++ u ++ (if d then ['$', '$'] else ['$'])) = .ok (d, u) := by
  cases d with
  | true => simp [Verif.TeX.mathParts]
  | false =>
    cases u with
    | nil => exact absurd rfl (hu0 rfl)
    | cons c u =>
      have hc : c ≠ '$' := fun hc => hud (by simp [hc])
      simp only [Bool.false_eq_true, if_false]
      unfold Verif.TeX.mathParts
      split
      · rename_i heq; simp at heq; exact absurd heq.1 hc
      · rename_i l heq
        simp only [List.cons_append, List.nil_append, List.cons.injEq, true_and] at heq
        subst heq
        simp
      · rename_i h1 h2; exact absurd rfl (h2 _)

/-- What is needed of the parser on the contents. -/
def RestoresBelow (name : Str) (cs : List Str) (parse : Str → Except Verif.TeX.Err (List Node)) (txt : Str) : Prop :=
  ∀ (t ctx : Str) (ns : List Node), t.length < txt.length → t <:+: txt → DollarsOk t → Inner txt t →
    Marked name cs.length t ctx → parse t = .ok ns →
    Restored name cs ctx t (restL name cs ns) ∧ MarksL name cs.length ns

theorem tag_not_lit {name : Str} (hn : NameOk name) {c : Char} {r : Str} (hc : c ≠ 'a') :
    ¬ tag name <+: '\\' :: c :: r := by
  obtain ⟨n, rfl⟩ := hn.head
  rintro ⟨z, hz⟩
  simp only [tag, List.cons_append, List.cons.injEq, true_and] at hz
  exact hc hz.1.symm

/-- First stage, environments and mathematics. -/
theorem match_restored {name : Str} (hn : NameOk name) (cs : List Str)
    {parse : Str → Except Verif.TeX.Err (List Node)} {txt l r x s ctx : Str} {m : Match} {n : Node}
    (hplain : Basic txt) (hi : l <:+: txt) (hdl : DollarsOk l) (hp : RestoresBelow name cs parse txt)
    (h : envAt l = some (m, r)) (hmi : m.str <:+: txt) (hn' : matchNode parse m = .ok n)
    (hm : Marked name cs.length (x ++ m.str ++ s) ctx) :
    Restored name cs (s ++ ctx) m.str (rest name cs n) ∧ Marks name cs.length n := by
  rcases envAt_shape (hplain.infix hi) hdl h with ⟨N, C, rfl, h1, h2, hdC⟩ | ⟨d, u, rfl, hud, hu0⟩
  · simp only [matchNode, Verif.TeX.envParts_spec h1 h2] at hn'
    simp only [Match.str] at hmi hm ⊢
    cases hC : parse C with
    | error e => rw [hC] at hn'; cases hn'
    | ok ns =>
      rw [hC] at hn'
      simp only [Except.ok.injEq] at hn'
      subst hn'
      have hCi : C <:+: txt := List.IsInfix.trans ⟨"\\begin{".toList ++ N ++ ['}'], endTag N, by simp⟩ hmi
      have hlen : C.length < txt.length := by
        have := hmi.length_le
        simp only [List.length_append, List.length_cons] at this
        omega
      have hmC : Marked name cs.length C (endTag N ++ s ++ ctx) := by
        have : Marked name cs.length ((x ++ ("\\begin{".toList ++ N ++ ['}'])) ++ C ++ (endTag N ++ s)) ctx := by
          simpa using hm
        have := this.part hn (.inr ⟨'\\', _, rfl, .inl rfl⟩)
        simpa using this
      obtain ⟨r1, r2⟩ := hp C _ ns hlen hCi hdC (by
        obtain ⟨x', y', hxy⟩ := hmi
        exact .env x' N y' hxy.symm) hmC hC
      refine ⟨?_, r2⟩
      rw [rest_env]
      have hN1 : NoTag name (['}'] ++ C ++ endTag N ++ s ++ ctx) N := by
        refine noTag_name (m := cs.length) (s := ['}'] ++ C ++ endTag N ++ s) N x [] "\\begin{".toList (.inl rfl) ?_
          (by simp) h1
        have e : x ++ "\\begin{".toList ++ [] ++ N ++ (['}'] ++ C ++ endTag N ++ s)
            = x ++ ("\\begin{".toList ++ N ++ ['}'] ++ C ++ endTag N) ++ s := by simp
        rw [e]; exact hm
      have hN2 : NoTag name (['}'] ++ s ++ ctx) N := by
        refine noTag_name (m := cs.length) (s := ['}'] ++ s) N (x ++ ("\\begin{".toList ++ N ++ ['}'] ++ C)) []
          "\\end{".toList (.inr rfl) ?_ (by simp) h1
        have e : x ++ ("\\begin{".toList ++ N ++ ['}'] ++ C) ++ "\\end{".toList ++ [] ++ N ++ (['}'] ++ s)
            = x ++ ("\\begin{".toList ++ N ++ ['}'] ++ C ++ endTag N) ++ s := by simp [endTag]
        rw [e]; exact hm
      have hB : NoTag name (C ++ endTag N ++ s ++ ctx) ("\\begin{".toList ++ N ++ ['}']) := by
        have h4 : NoTag name (C ++ endTag N ++ s ++ ctx) (N ++ ['}']) :=
          NoTag.append (by simpa using hN1) (noTag_of (by simp))
        have h3 : NoTag name (C ++ endTag N ++ s ++ ctx) ("begin{".toList ++ (N ++ ['}'])) :=
          NoTag.append (noTag_of (by decide)) h4
        have : NoTag name (C ++ endTag N ++ s ++ ctx) ('\\' :: ("begin{".toList ++ (N ++ ['}']))) :=
          ⟨tag_not_lit hn (by decide), h3⟩
        simpa using this
      have hE : NoTag name (s ++ ctx) (endTag N) := by
        have h4 : NoTag name (s ++ ctx) (N ++ ['}']) :=
          NoTag.append (by simpa using hN2) (noTag_of (by simp))
        have h3 : NoTag name (s ++ ctx) ("end{".toList ++ (N ++ ['}'])) :=
          NoTag.append (noTag_of (by decide)) h4
        have : NoTag name (s ++ ctx) ('\\' :: ("end{".toList ++ (N ++ ['}']))) :=
          ⟨tag_not_lit hn (by decide), h3⟩
        simpa [endTag] using this
      refine Restored.append (Restored.append ?_ ?_) hE.restored
      · refine NoTag.restored ?_
        simpa using hB
      · simpa using r1
  · simp only [matchNode, mathParts_math d hud hu0] at hn'
    simp only [Match.str] at hmi hm ⊢
    have hin : Inner txt u := by
      obtain ⟨x', y', hxy⟩ := hmi
      cases d with
      | false => exact .math x' y' hud (by rw [← hxy]; simp)
      | true => exact .math (x' ++ ['$']) ('$' :: y') hud (by rw [← hxy]; simp)
    generalize hD : (if d then ['$', '$'] else ['$']) = D at *
    have hD' : '\\' ∉ D ∧ D ≠ [] ∧ ∃ r, D = '$' :: r := by
      rw [← hD]; cases d <;> simp
    cases hC : parse u with
    | error e => rw [hC] at hn'; cases hn'
    | ok ns =>
      rw [hC] at hn'
      simp only [Except.ok.injEq] at hn'
      subst hn'
      have hCi : u <:+: txt := List.IsInfix.trans ⟨D, D, by simp⟩ hmi
      have hlen : u.length < txt.length := by
        have := hmi.length_le
        have := List.length_pos_iff.mpr hD'.2.1
        simp only [List.length_append] at *
        omega
      have hmC : Marked name cs.length u (D ++ s ++ ctx) := by
        have : Marked name cs.length ((x ++ D) ++ u ++ (D ++ s)) ctx := by simpa using hm
        obtain ⟨r', hr'⟩ := hD'.2.2
        have := this.part hn (.inr ⟨'$', r' ++ s, by rw [hr']; rfl, .inr rfl⟩)
        simpa using this
      obtain ⟨r1, r2⟩ := hp u _ ns hlen hCi (.inl (fun hi => hud (hi.subset (by simp)))) hin hmC hC
      refine ⟨?_, r2⟩
      rw [rest_math, hD]
      refine Restored.append (Restored.append ?_ ?_) (noTag_of hD'.1).restored
      · exact (noTag_of hD'.1).restored
      · simpa using r1

theorem itemsMarks_append {name : Str} {m : Nat} {a b : List Item} (ha : ItemsMarks name m a)
    (hb : ItemsMarks name m b) : ItemsMarks name m (a ++ b) := by
  intro it hit
  rcases List.mem_append.mp hit with h | h
  · exact ha it h
  · exact hb it h

theorem first_restored {name : Str} (hn : NameOk name) (cs : List Str)
    {parse : Str → Except Verif.TeX.Err (List Node)} {txt ctx : Str} (hplain : Basic txt)
    (hp : RestoresBelow name cs parse txt) (ps : List (Str × Match)) (e : Str) : ∀ (items : List Item),
    envCat ps e <:+: txt →
    (∀ tm ∈ ps, ∃ l' r', l' <:+: txt ∧ DollarsOk l' ∧ envAt l' = some (tm.2, r')) →
    Marked name cs.length (envCat ps e) ctx →
    firstItems parse ps e = .ok items →
    Restored name cs ctx (envCat ps e) (itemsRest name cs items) ∧ ItemsMarks name cs.length items := by
  induction ps with
  | nil =>
    intro items hi _ hm h
    exact chunk_restored hn cs txt hplain e.length e ctx items (le_refl _) hi hm h
  | cons q ps ih =>
    obtain ⟨t, m⟩ := q
    intro items hi hat hm h
    simp only [envCat] at hi hm ⊢
    simp only [firstItems] at h
    obtain ⟨l', r', hl', hdl', he⟩ := hat (t, m) (by simp)
    have hti : t <:+: txt := List.IsInfix.trans ⟨[], m.str ++ envCat ps e, by simp⟩ hi
    have hmi : m.str <:+: txt := List.IsInfix.trans ⟨t, envCat ps e, by simp⟩ hi
    cases h1 : chunkItems (commandSplit t.length t).1 (commandSplit t.length t).2 with
    | error x => rw [h1] at h; cases h
    | ok l =>
      rw [h1] at h
      simp only at h
      cases h2 : matchNode parse m with
      | error x => rw [h2] at h; cases h
      | ok n =>
        rw [h2] at h
        simp only at h
        cases h3 : firstItems parse ps e with
        | error x => rw [h3] at h; cases h
        | ok rr =>
          rw [h3] at h
          simp only [Except.ok.injEq] at h
          subst h
          have hs : m.str = [] ∨ ∃ c r, m.str = c :: r ∧ (c = '\\' ∨ c = '$') := by
            rcases envAt_shape (hplain.infix hl') hdl' he with ⟨N, C, rfl, _⟩ | ⟨d, u, rfl, _⟩
            · exact .inr ⟨'\\', _, rfl, .inl rfl⟩
            · cases d
              · exact .inr ⟨'$', _, rfl, .inr rfl⟩
              · exact .inr ⟨'$', _, rfl, .inr rfl⟩
          have hmne : ∃ c r, m.str = c :: r ∧ (c = '\\' ∨ c = '$') := by
            rcases envAt_shape (hplain.infix hl') hdl' he with ⟨N, C, rfl, _⟩ | ⟨d, u, rfl, _⟩
            · exact ⟨'\\', _, rfl, .inl rfl⟩
            · cases d
              · exact ⟨'$', _, rfl, .inr rfl⟩
              · exact ⟨'$', _, rfl, .inr rfl⟩
          have hmt : Marked name cs.length t (m.str ++ envCat ps e ++ ctx) := by
            have : Marked name cs.length ([] ++ t ++ (m.str ++ envCat ps e)) ctx := by simpa using hm
            obtain ⟨c, r, hc, hcc⟩ := hmne
            have := this.part hn (.inr ⟨c, r ++ envCat ps e, by rw [hc]; rfl, hcc⟩)
            simpa using this
          obtain ⟨a1, a2⟩ := chunk_restored hn cs txt hplain t.length t _ l (le_refl _) hti hmt h1
          obtain ⟨b1, b2⟩ := match_restored hn cs hplain hl' hdl' hp he hmi h2 (x := t) (s := envCat ps e) (ctx := ctx) hm
          obtain ⟨c1, c2⟩ := ih rr (List.IsInfix.trans ⟨t ++ m.str, [], by simp⟩ hi)
            (fun tm htm => hat tm (by simp [htm])) (Marked.suffix hn (x := t ++ m.str) (by simpa using hm)) h3
          refine ⟨?_, itemsMarks_append a2 ?_⟩
          · rw [itemsRest_append, itemsRest_cons]
            have := Restored.append b1 c1
            have := Restored.append (a := t) (b := m.str ++ envCat ps e) (by simpa using a1) this
            simpa [itemRest] using this
          · intro it hit
            rcases List.mem_cons.mp hit with rfl | hit
            · exact b2
            · exact c2 it hit

/-- Second stage. -/
theorem left_restored {name : Str} (hn : NameOk name) (cs : List Str)
    {parse : Str → Except Verif.TeX.Err (List Node)} {txt : Str}
    (hp : RestoresBelow name cs parse txt) (items : List Item) : Good txt items → ItemsMarks name cs.length items →
    ∀ its, fixLeftRight parse items = .ok its →
    itemsRest name cs its = itemsRest name cs items ∧ ItemsMarks name cs.length its := by
  have hlr : ∀ n : Str, n = "left".toList ∨ n = "right".toList → n ≠ name := by
    obtain ⟨n', rfl⟩ := hn.head
    rintro n (rfl | rfl) <;> simp
  induction items with
  | nil =>
    intro _ _ its h
    simp only [fixLeftRight, Except.ok.injEq] at h
    subst h
    exact ⟨rfl, by intro it hit; cases hit⟩
  | cons it l ih =>
    intro hg hm its h
    simp only [fixLeftRight] at h
    cases h1 : fixLeftRight parse l with
    | error e => rw [h1] at h; cases h
    | ok tail =>
      rw [h1] at h
      simp only at h
      have hgl : Good txt l := by
        cases it with
        | str s => exact hg
        | node n => exact hg
        | cmd n args orig => exact hg.2
      obtain ⟨t1, t2⟩ := ih hgl (fun x hx => hm x (by simp [hx])) tail h1
      have keep : ∀ its, Except.ok (it :: tail) = (Except.ok its : Except Verif.TeX.Err (List Item)) →
          itemsRest name cs its = itemsRest name cs (it :: l) ∧ ItemsMarks name cs.length its := by
        intro its h
        simp only [Except.ok.injEq] at h
        subst h
        refine ⟨by rw [itemsRest_cons, itemsRest_cons, t1], ?_⟩
        intro x hx
        rcases List.mem_cons.mp hx with rfl | hx
        · exact hm x (by simp)
        · exact t2 x hx
      cases it with
      | str s => exact keep its h
      | node n => exact keep its h
      | cmd n args orig =>
        simp only [leftRight] at h
        obtain ⟨⟨g1, g2, g3, g4, g5, g6⟩, g7⟩ := hg
        split_ifs at h with hla hlr'
        · cases orig with
          | nil => cases h
          | cons c t =>
            simp only at h
            cases h4 : parse t with
            | error e => rw [h4] at h; cases h
            | ok ns =>
              rw [h4] at h
              simp only [Except.ok.injEq] at h
              subst h
              have hnn := hlr n (.inl hla.1)
              have hno := (hm _ (List.mem_cons_self)).2 hnn
              have hmt : Marked name cs.length t [] := by
                rintro a b rfl hb ht
                exfalso
                apply hno
                simp only [List.append_nil] at ht
                exact ht.isInfix.trans ⟨c :: a, [], by simp⟩
              have hNo : ∀ t : Str, ¬ tag name <:+: t → NoTag name [] t := by
                intro t
                induction t with
                | nil => intro _; trivial
                | cons d t ih =>
                  intro hh
                  refine ⟨fun h => hh (List.IsPrefix.isInfix (by simpa using h)), ih (fun h => hh (h.trans ⟨[d], [], by simp⟩))⟩
              obtain ⟨r1, r2⟩ := hp t [] ns (by simp at g4; omega)
                (List.IsInfix.trans ⟨'\\' :: n ++ [c], [], by simp⟩ g2.1.1)
                (.inl (fun h => g2.2 (h.trans ⟨[c], [], by simp⟩)))
                (.left c g2.1.2 (by have := g2.1.1; rw [hla.1] at this; exact this)) hmt h4
              have e : restL name cs ns = t :=
                r1.unique (hNo t (fun h => hno (h.trans ⟨[c], [], by simp⟩))).restored
              refine ⟨?_, ?_⟩
              · rw [itemsRest_cons name cs (.cmd n args (c :: t)) l, List.cons_append, itemsRest_cons name cs (.node _),
                  itemsRest_append, itemsRest_nodes, e, t1]
                have e1 : itemRest name cs (.cmd n args (c :: t)) = '\\' :: n ++ (c :: t) := by
                  show restCmd name cs n args = _
                  rw [restCmd, if_neg hnn, ← g1]
                have e2 : itemRest name cs (.node (.trailing n c)) = '\\' :: n ++ [c] := rfl
                rw [e1, e2]
                simp
              · intro x hx
                rcases List.mem_append.mp hx with hx | hx
                · rcases List.mem_cons.mp hx with rfl | hx
                  · trivial
                  · obtain ⟨y, hy, rfl⟩ := List.mem_map.mp hx
                    exact (marksL_iff name _ ns).mp r2 y hy
                · exact t2 x hx
        · have hnn := hlr n hlr'
          have ha0 : args = [] := by
            rcases hlr' with h | h
            · by_contra ha; exact hla ⟨h, ha⟩
            · exact g6 h
          subst ha0
          split at h
          · cases h
          · rename_i c t tl
            have eC : itemRest name cs (.cmd n [] orig) = '\\' :: n := by
              show restCmd name cs n [] = _
              rw [restCmd, if_neg hnn]; simp
            have eT : itemRest name cs (.node (.trailing n c)) = '\\' :: n ++ [c] := rfl
            split_ifs at h with hsp ht
            · exact keep its h
            · simp only [Except.ok.injEq] at h
              subst h ht
              refine ⟨?_, ?_⟩
              · rw [itemsRest_cons name cs (.node (.trailing n c)) tl, itemsRest_cons name cs (.cmd n [] orig) l, ← t1,
                  itemsRest_cons name cs (.str [c]) tl, eC, eT]
                show '\\' :: n ++ [c] ++ _ = '\\' :: n ++ ([c] ++ _)
                simp
              · intro x hx
                rcases List.mem_cons.mp hx with rfl | hx
                · trivial
                · exact t2 x (by simp [hx])
            · simp only [Except.ok.injEq] at h
              subst h
              refine ⟨?_, ?_⟩
              · rw [itemsRest_cons name cs (.node (.trailing n c)) (.str t :: tl), itemsRest_cons name cs (.cmd n [] orig) l,
                  ← t1, itemsRest_cons name cs (.str (c :: t)) tl, itemsRest_cons name cs (.str t) tl, eC, eT]
                show '\\' :: n ++ [c] ++ (t ++ _) = '\\' :: n ++ (c :: t ++ _)
                simp
              · intro x hx
                rcases List.mem_cons.mp hx with rfl | hx
                · trivial
                · rcases List.mem_cons.mp hx with rfl | hx
                  · trivial
                  · exact t2 x (by simp [hx])
          · exact keep its h
        · exact keep its h

theorem lineNodes_rest (name : Str) (cs : List Str) (m : Nat) (ts : List Str) :
    restL name cs (lineNodes ts) = Verif.TeX.printL (lineNodes ts) ∧ MarksL name m (lineNodes ts) := by
  induction ts with
  | nil => exact ⟨rfl, trivial⟩
  | cons t ts ih =>
    cases ts with
    | nil => exact ⟨rfl, trivial, trivial⟩
    | cons u ts =>
      refine ⟨?_, trivial, trivial, ih.2⟩
      show t ++ (['\n'] ++ restL name cs (lineNodes (u :: ts))) = t ++ (['\n'] ++ Verif.TeX.printL (lineNodes (u :: ts)))
      rw [ih.1]

theorem finish_restored (name : Str) (cs : List Str) (m : Nat) (items : List Item) (h : ItemsMarks name m items) :
    restL name cs (finish items) = itemsRest name cs items ∧ MarksL name m (finish items) := by
  induction items with
  | nil => exact ⟨rfl, trivial⟩
  | cons it l ih =>
    obtain ⟨i1, i2⟩ := ih (fun x hx => h x (by simp [hx]))
    cases it with
    | str s =>
      obtain ⟨l1, l2⟩ := lineNodes_rest name cs m (splitLines s)
      simp only [finish]
      refine ⟨by rw [restL_append, i1, l1, Verif.TeX.lines_spec, itemsRest_cons]; rfl, ?_⟩
      rw [marksL_iff] at *
      intro n hn
      rcases List.mem_append.mp hn with hn | hn
      · exact l2 n hn
      · exact i2 n hn
    | cmd n args orig =>
      simp only [finish]
      exact ⟨by rw [restL_cons, i1, itemsRest_cons]; rfl, (h _ List.mem_cons_self).1, i2⟩
    | node n =>
      simp only [finish]
      exact ⟨by rw [restL_cons, i1, itemsRest_cons]; rfl, h _ List.mem_cons_self, i2⟩

theorem noTag_infix {name : Str} : ∀ t : Str, ¬ tag name <:+: t → NoTag name [] t := by
  intro t
  induction t with
  | nil => intro _; trivial
  | cons d t ih =>
    intro hh
    exact ⟨fun h => hh (List.IsPrefix.isInfix (by simpa using h)), ih (fun h => hh (h.trans ⟨[d], [], by simp⟩))⟩

/-- No mark stands directly after an opening brace (and white space). -/
def NoBraceMark (name t : Str) : Prop := ∀ ws, Spaces ws → ¬ ('{' :: ws ++ tag name) <:+: t

theorem NoBraceMark.infix {name t s : Str} (h : NoBraceMark name t) (hs : s <:+: t) : NoBraceMark name s :=
  fun ws hw hi => h ws hw (hi.trans hs)

/-- Third stage: there are no marks in declarations. -/
theorem enc_restored {name : Str} {cs : List Str} {parse : Str → Except Verif.TeX.Err (List Node)} {P : Str → Prop}
    (hk : ∀ k ns, P k → parse k = .ok ns → restL name cs ns = k ∧ MarksL name cs.length ns ∧ ¬ tag name <:+: k)
    {L out : List Item} (h : Enc parse P L out) : NoBraceMark name (itemsStr L) → ItemsMarks name cs.length L →
    itemsRest name cs out = itemsRest name cs L ∧ ItemsMarks name cs.length out := by
  induction h with
  | nil => intro _ _; exact ⟨rfl, by simp [ItemsMarks]⟩
  | keep it L L' _ ih =>
    intro hb hm
    obtain ⟨h1, h2⟩ := ih (hb.infix ⟨itemStr it, [], by rw [Verif.TeX.itemsStr_cons]; simp⟩)
      (fun x hx => hm x (List.mem_cons_of_mem _ hx))
    refine ⟨by rw [itemsRest_cons, itemsRest_cons, h1], ?_⟩
    intro x hx
    rcases List.mem_cons.mp hx with rfl | hx
    · exact hm _ List.mem_cons_self
    · exact h2 x hx
  | decl x ws k r it c ns B L' hws hc hP hpk hpr _ ih =>
    intro hb hm
    have hs : itemsStr (.str (x ++ '{' :: ws) :: it :: .str (k ++ '}' :: r) :: B) =
        x ++ ('{' :: ws ++ itemStr it) ++ (k ++ '}' :: r ++ itemsStr B) := by
      rw [Verif.TeX.itemsStr_cons, Verif.TeX.itemsStr_cons, Verif.TeX.itemsStr_cons]
      change (x ++ '{' :: ws) ++ (itemStr it ++ ((k ++ '}' :: r) ++ itemsStr B)) = _
      simp only [List.append_assoc, List.cons_append, List.nil_append]
    obtain ⟨k1, k2, k3⟩ := hk k ns hP hpk
    obtain ⟨h1, h2⟩ := ih (hb.infix ⟨x ++ ('{' :: ws ++ itemStr it) ++ (k ++ ['}']), [], by
        rw [hs, Verif.TeX.itemsStr_cons]
        change _ ++ (r ++ itemsStr B) ++ [] = _
        simp⟩)
      (by
        intro y hy
        rcases List.mem_cons.mp hy with rfl | hy
        · trivial
        · exact hm y (by simp [hy]))
    have hname : ∀ y, itemStr it = tag name ++ y → False := by
      intro y hy
      apply hb ws hws
      rw [hs, hy]
      exact ⟨x, y ++ (k ++ '}' :: r ++ itemsStr B), by simp⟩
    have hit : itemRest name cs it = Verif.TeX.print c := by
      cases it with
      | str s => simp [asCommand] at hc
      | cmd n args orig =>
        simp only [asCommand, Option.some.injEq] at hc
        subst hc
        show restCmd name cs n args = _
        rw [restCmd, if_neg (by rintro rfl; exact hname _ rfl)]
        rfl
      | node n =>
        cases n <;> simp only [asCommand, Option.some.injEq, reduceCtorEq] at hc
        · subst hc
          rename_i n args
          show restCmd name cs n args = _
          rw [restCmd, if_neg (by rintro rfl; exact hname _ rfl)]
          rfl
        · subst hc; rfl
    refine ⟨?_, ?_⟩
    · rw [itemsRest_cons, itemsRest_cons, h1, itemsRest_cons, itemsRest_cons, itemsRest_cons, itemsRest_cons, hit]
      change x ++ (('{' :: ws ++ Verif.TeX.print c ++ restL name cs ns ++ ['}']) ++ (r ++ itemsRest name cs B)) =
        (x ++ '{' :: ws) ++ (Verif.TeX.print c ++ ((k ++ '}' :: r) ++ itemsRest name cs B))
      rw [k1]
      simp only [List.append_assoc, List.cons_append, List.nil_append]
    · intro y hy
      rcases List.mem_cons.mp hy with rfl | hy
      · trivial
      rcases List.mem_cons.mp hy with rfl | hy
      · exact ⟨k2, by rw [hpr]; exact k3⟩
      · exact h2 y hy

/-- Parsing a text with marks: restoring the comments in the nodes restores them in the text. -/
theorem parse_restored {name : Str} (hn : NameOk name) (cs : List Str) (f : Nat) : ∀ (txt ctx : Str) (ns : List Node),
    txt.length < f → Tame txt → NoBraceMark name txt → Marked name cs.length txt ctx → parse f txt = .ok ns →
    Restored name cs ctx txt (restL name cs ns) ∧ MarksL name cs.length ns := by
  induction f with
  | zero => intro txt ctx ns h; omega
  | succ f ih =>
    intro txt ctx ns hlen ht hbm hm h
    have hp : ParsesBelow (parse f) txt := fun t hl hi hd hin =>
      Verif.TeX.parse_tame f t (by omega) ⟨ht.basic.infix hi, hd, ht.decl.inner ht.left hin, ht.left.infix hi⟩
    have hr : RestoresBelow name cs (parse f) txt := fun t ctx ns hl hi hd hin hm h =>
      ih t ctx ns (by omega) ⟨ht.basic.infix hi, hd, ht.decl.inner ht.left hin, ht.left.infix hi⟩ (hbm.infix hi) hm h
    have hat : ∀ l m r, l <:+: txt → DollarsOk l → envAt l = some (m, r) → l = m.str ++ r ∧ m.str ≠ [] ∧ DollarsOk r :=
      fun l m r hi hd he => by
        obtain ⟨h1, h2, h3, _⟩ := Verif.TeX.envAt_spec ht.basic hi hd hp he
        exact ⟨h1, h2, h3⟩
    have hsplit := Verif.TeX.envSplit_spec hat txt.length txt (le_refl _) List.infix_rfl ht.dollars
    have hch := Verif.TeX.envSplit_chunks hat txt.length txt (le_refl _) List.infix_rfl ht.dollars
    obtain ⟨items, h1, h2, h3⟩ := Verif.TeX.first_spec ht.basic hp (envSplit txt.length txt).1
      (envSplit txt.length txt).2 (by rw [hsplit.1]) hsplit.2.1 hsplit.2.2.1 hsplit.2.2.2
    have hsh := Verif.TeX.first_shape ht.basic hp (envSplit txt.length txt).1
      (envSplit txt.length txt).2 (by rw [hsplit.1]) hsplit.2.1 hsplit.2.2.1 hsplit.2.2.2 hch items h1
    obtain ⟨its, h4, h5, _⟩ := Verif.TeX.left_spec hp items h3
    have hs2 := Verif.TeX.shape_left hp items h3 hsh its h4
    have htxt : itemsStr its = txt := by rw [h5, h2, hsplit.1]
    have htri := Verif.TeX.tri_of_shape (f := f) ht (fun t hl ht => Verif.TeX.parse_tame f t (by omega) ht) its hs2 htxt
    obtain ⟨out, h6, h7⟩ := Verif.TeX.encLoop_spec (parse f) _ (its.length - 2) [] its htri
    simp only [List.length_nil, Nat.zero_add, List.nil_append] at h6
    unfold parse at h
    simp only [h1, h4, h6, deleteAll, Except.ok.injEq] at h
    subst h
    obtain ⟨a1, a2⟩ := first_restored hn cs ht.basic hr (envSplit txt.length txt).1
      (envSplit txt.length txt).2 items (by rw [hsplit.1]) hsplit.2.1 (by rw [hsplit.1]; exact hm) h1
    obtain ⟨b1, b2⟩ := left_restored hn cs hr items h3 a2 its h4
    obtain ⟨d1, d2⟩ := enc_restored (name := name) (cs := cs) (by
      rintro k ns ⟨kl, ki, knc, kt⟩ hk
      have hno : ¬ tag name <:+: k := by
        intro hi
        obtain ⟨n', hn'⟩ := hn.head
        refine knc 'a' (by decide) (List.IsInfix.trans ?_ hi)
        rw [hn']
        exact ⟨[], n', by simp [tag]⟩
      have hmk : Marked name cs.length k [] := by
        rintro a b rfl hb ht
        exfalso
        apply hno
        simp only [List.append_nil] at ht
        exact ht.isInfix.trans ⟨a, [], by simp⟩
      obtain ⟨r1, r2⟩ := ih k [] ns (by omega) kt (hbm.infix ki) hmk hk
      exact ⟨r1.unique (noTag_infix k hno).restored, r2, hno⟩) h7 (by rw [htxt]; exact hbm) b2
    obtain ⟨c1, c2⟩ := finish_restored name cs cs.length out d2
    rw [hsplit.1] at a1
    rw [c1, d1, b1]
    exact ⟨a1, c2⟩

end Verif.TeXFile
