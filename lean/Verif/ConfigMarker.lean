import Mathlib.Data.List.Basic
import Mathlib.Data.List.Induction
import Mathlib.Tactic.Linarith
import Verif.ConfigFile

/-!
# Section markers in configuration files (astropysics/external/configobj.py 1100-1115, 1564-1576, 1595, 1985-1991) (C193)

The regular expression `_sectionmarker` with Python's backtracking order, the name and the depths that `_parse` takes from it, and the line that `_write_marker` writes.  A line has no line end in it.
`((?:\[\s*)+)` matches a text of brackets and spaces that begins with a bracket, the longest first; `((?:\s*\])+)` one that ends with a bracket, the longest first.
-/

namespace Verif.ConfigMarker

open Verif.ConfigFile (Str isS dot quote unquote greedyRun lazyRun lit isPlus plainEnds singleQuote)

def opening (c : Char) : Bool := c == '[' || isS c
def closing (c : Char) : Bool := c == ']' || isS c

/-- `\s*(\#.*)?$`: the comment. -/
def comment (s : Str) : Option Str :=
  greedyRun isS (fun _ r => if r = [] then some [] else if r.head? = some '#' then some r else none) [] s

/-- `((?:\s*\])+)` and the comment, configobj.py 1109-1110. -/
def closes (s : Str) : Option (ℕ × Str) :=
  greedyRun closing (fun acc r => if acc.getLast? = some ']' then (comment r).map (fun c => (acc.count ']', c)) else none) [] s

/-- A name in quotes, configobj.py 1104-1105. -/
def quotedName (q : Char) (s : Str) : Option (Str × ℕ × Str) :=
  lit q (fun r => greedyRun isS (fun sp r1 => match r1 with
    | [] => none
    | x :: r2 => if isS x then none else
      lazyRun dot (fun acc r3 => greedyRun isS (fun sp2 r4 => lit q (fun r5 => (closes r5).map (fun p => (q :: (sp ++ x :: (acc ++ sp2)) ++ [q], p.1, p.2))) r4) [] r3) [] r2) [] r) s

/-- A name without quotes, configobj.py 1106. -/
def plainName (s : Str) : Option (Str × ℕ × Str) :=
  match s with
  | [] => none
  | x :: r => if x = '\'' ∨ x = '"' ∨ isS x then none else lazyRun dot (fun acc r2 => (closes r2).map (fun p => (x :: acc, p.1, p.2))) [] r

/-- What the line says: opening brackets, name (with its quotes), closing brackets, comment, configobj.py 1100-1115 and 1566-1576. -/
def marker (line : Str) : Option (ℕ × Str × ℕ × Str) :=
  greedyRun isS (fun _ s => lit '[' (fun r => greedyRun opening (fun acc t =>
    ((quotedName '"' t).or ((quotedName '\'' t).or (plainName t))).map (fun p => (acc.count '[' + 1, p.1, p.2.1, p.2.2))) [] r) s) [] line

/-- The outcome of a section line: the depth and the name, configobj.py 1573-1576 and 1595, or NestingError. -/
inductive Read
  | sect (depth : ℕ) (name : Str) (comment : Str)
  | nesting
  | syntaxError
  /-- it is no section line -/
  | other
  deriving DecidableEq

def read (line : Str) : Read :=
  match marker line with
  | none => .other
  | some (a, n, b, c) => if a = b then (match unquote n with | some v => .sect a v c | none => .syntaxError) else .nesting

/-- `_write_marker`, configobj.py 1985-1991; `q` is the quoted name. -/
def written (indent : Str) (depth : ℕ) (q c : Str) : Str := indent ++ (List.replicate depth '[' ++ (q ++ (List.replicate depth ']' ++ c)))

/-! ## Specification -/

/-- A comment at the end of the line. -/
def Comment (c : Str) : Prop := c = [] ∨ ∃ sp t, c = sp ++ '#' :: t ∧ ∀ x ∈ sp, isS x = true
/-- The comment without the spaces before it. -/
def stripped (c : Str) : Str := c.dropWhile isS
def Blank (v : Str) : Prop := ∀ x ∈ v, isS x = true

/-! ## Proofs -/

theorem greedy_none {R : Type} (p : Char → Bool) (k : Str → Str → Option R) : ∀ s acc, (∀ u w, s = u ++ w → (∀ x ∈ u, p x = true) → k (acc ++ u) w = none) →
    greedyRun p k acc s = none := by
  intro s
  induction s with
  | nil => intro acc h; have := h [] [] rfl (by simp); simpa [greedyRun] using this
  | cons c r ih =>
    intro acc h
    have h0 := h [] (c :: r) rfl (by simp)
    simp only [List.append_nil] at h0
    simp only [greedyRun]
    split
    · rename_i hp
      rw [ih (acc ++ [c]) (fun u w e hu => by
        have := h (c :: u) w (by rw [e]; rfl) (by intro x hx; rcases List.mem_cons.1 hx with rfl | hx; exacts [hp, hu x hx])
        simpa using this)]
      exact h0
    · exact h0

theorem greedy_max {R : Type} (p : Char → Bool) (k : Str → Str → Option R) (x : R) : ∀ u w acc, (∀ c ∈ u, p c = true) → (∀ c, w.head? = some c → p c = false) → k (acc ++ u) w = some x →
    greedyRun p k acc (u ++ w) = some x := by
  intro u
  induction u with
  | nil =>
    intro w acc _ hw hk
    simp only [List.append_nil] at hk
    cases w with
    | nil => simpa [greedyRun] using hk
    | cons c r => simp [greedyRun, hw c rfl, hk]
  | cons c u ih =>
    intro w acc hu hw hk
    simp only [List.cons_append, greedyRun, hu c (by simp), if_true]
    rw [ih w (acc ++ [c]) (fun y hy => hu y (by simp [hy])) hw (by simpa using hk)]

theorem greedy_some {R : Type} (p : Char → Bool) (k : Str → Str → Option R) (x : R) : ∀ s acc, greedyRun p k acc s = some x →
    ∃ u w, s = u ++ w ∧ (∀ c ∈ u, p c = true) ∧ k (acc ++ u) w = some x := by
  intro s
  induction s with
  | nil => intro acc h; exact ⟨[], [], rfl, by simp, by simpa [greedyRun] using h⟩
  | cons c r ih =>
    intro acc h
    simp only [greedyRun] at h
    split at h
    · rename_i hp
      cases hg : greedyRun p k (acc ++ [c]) r with
      | some y =>
        rw [hg] at h
        simp only [Option.some.injEq] at h
        subst h
        obtain ⟨u, w, e, hu, hk⟩ := ih _ hg
        exact ⟨c :: u, w, by rw [e]; rfl, by intro z hz; rcases List.mem_cons.1 hz with rfl | hz; exacts [hp, hu z hz], by simpa using hk⟩
      | none => rw [hg] at h; exact ⟨[], c :: r, rfl, by simp, by simpa using h⟩
    · exact ⟨[], c :: r, rfl, by simp, by simpa using h⟩

theorem lazy_first {R : Type} (p : Char → Bool) (k : Str → Str → Option R) (x : R) : ∀ u w acc, (∀ c ∈ u, p c = true) → (∀ a b, u = a ++ b → b ≠ [] → k (acc ++ a) (b ++ w) = none) →
    k (acc ++ u) w = some x → lazyRun p k acc (u ++ w) = some x := by
  intro u
  induction u with
  | nil =>
    intro w acc _ _ hk
    simp only [List.append_nil] at hk
    cases w with
    | nil => simpa [lazyRun] using hk
    | cons c r => simp [lazyRun, hk]
  | cons c u ih =>
    intro w acc hu hn hk
    have h0 := hn [] (c :: u) rfl (by simp)
    simp only [List.append_nil] at h0
    simp only [List.cons_append] at h0
    simp only [List.cons_append, lazyRun, h0, hu c (by simp), if_true]
    exact ih w (acc ++ [c]) (fun y hy => hu y (by simp [hy])) (fun a b e hb => by
      have := hn (c :: a) b (by rw [e]; rfl) hb
      simpa using this) (by simpa using hk)

theorem lazy_some {R : Type} (p : Char → Bool) (k : Str → Str → Option R) (x : R) : ∀ s acc, lazyRun p k acc s = some x →
    ∃ u w, s = u ++ w ∧ (∀ c ∈ u, p c = true) ∧ k (acc ++ u) w = some x := by
  intro s
  induction s with
  | nil => intro acc h; exact ⟨[], [], rfl, by simp, by simpa [lazyRun] using h⟩
  | cons c r ih =>
    intro acc h
    simp only [lazyRun] at h
    cases hk : k acc (c :: r) with
    | some y => rw [hk] at h; exact ⟨[], c :: r, rfl, by simp, by simpa [hk] using h⟩
    | none =>
      rw [hk] at h
      simp only at h
      split at h
      · rename_i hp
        obtain ⟨u, w, e, hu, hk⟩ := ih _ h
        exact ⟨c :: u, w, by rw [e]; rfl, by intro z hz; rcases List.mem_cons.1 hz with rfl | hz; exacts [hp, hu z hz], by simpa using hk⟩
      · simp at h

theorem comment_ok (c : Str) (h : Comment c) : comment c = some (stripped c) := by
  unfold comment stripped
  rcases h with rfl | ⟨sp, t, rfl, hs⟩
  · simp [greedyRun]
  · refine greedy_max isS _ _ sp ('#' :: t) [] hs (by intro x hx; simp only [List.head?_cons, Option.some.injEq] at hx; subst hx; decide) ?_
    simp only [List.nil_append, List.head?_cons, reduceCtorEq, if_false, if_true, Option.some.injEq]
    rw [List.dropWhile_append_of_pos (by simpa using hs)]
    rfl

theorem greedy_pass {R : Type} (p : Char → Bool) (k : Str → Str → Option R) (x : R) : ∀ u w acc, (∀ c ∈ u, p c = true) → greedyRun p k (acc ++ u) w = some x →
    greedyRun p k acc (u ++ w) = some x := by
  intro u
  induction u with
  | nil => intro w acc _ h; simpa using h
  | cons c u ih =>
    intro w acc hu h
    simp only [List.cons_append, greedyRun, hu c (by simp), if_true]
    rw [ih w (acc ++ [c]) (fun y hy => hu y (by simp [hy])) (by simpa using h)]

def closeK (acc r : Str) : Option (ℕ × Str) := if acc.getLast? = some ']' then (comment r).map (fun c => (acc.count ']', c)) else none

theorem close_not (t : Str) : ∀ (sp acc : Str), (∀ x ∈ sp, isS x = true) → acc.getLast? ≠ some ']' → greedyRun closing closeK acc (sp ++ '#' :: t) = none := by
  intro sp
  induction sp with
  | nil =>
    intro acc _ hl
    have h1 : closing '#' = false := by decide
    simp [greedyRun, h1, closeK, hl]
  | cons x sp ih =>
    intro acc hs hl
    have hx := hs x (by simp)
    have h1 : closing x = true := by simp [closing, hx]
    have h2 : x ≠ ']' := by rintro rfl; revert hx; decide
    simp only [List.cons_append, greedyRun, h1, if_true]
    rw [ih (acc ++ [x]) (fun y hy => hs y (by simp [hy])) (by simpa using h2)]
    simp [closeK, hl]

/-- If the closing brackets are followed by a comment, they are counted. -/
theorem closes_ok (b : Str) (hb : ∀ x ∈ b, closing x = true) (hl : b.getLast? = some ']') (c : Str) (hc : Comment c) : closes (b ++ c) = some (b.count ']', stripped c) := by
  have hk : closeK b c = some (b.count ']', stripped c) := by simp [closeK, hl, comment_ok c hc]
  show greedyRun closing closeK [] (b ++ c) = _
  apply greedy_pass _ _ _ _ _ _ hb
  rw [List.nil_append]
  rcases hc with rfl | ⟨sp, t, rfl, hs⟩
  · simpa [greedyRun] using hk
  · cases sp with
    | nil =>
      have h1 : closing '#' = false := by decide
      simp only [List.nil_append] at hk
      simp only [List.nil_append, greedyRun, h1, hk]
      simp
    | cons x sp =>
      have hx := hs x (by simp)
      have h1 : closing x = true := by simp [closing, hx]
      have h2 : x ≠ ']' := by rintro rfl; revert hx; decide
      simp only [List.cons_append, greedyRun, h1, if_true]
      rw [close_not t sp (b ++ [x]) (fun y hy => hs y (by simp [hy])) (by simpa using h2)]
      simpa using hk

theorem comment_some (s c : Str) (h : comment s = some c) : ∃ sp, (∀ x ∈ sp, isS x = true) ∧ (s = sp ∨ ∃ t, s = sp ++ '#' :: t) := by
  unfold comment at h
  obtain ⟨u, w, e, hu, hk⟩ := greedy_some _ _ _ _ _ h
  refine ⟨u, hu, ?_⟩
  split at hk
  · rename_i hw; left; rw [e, hw]; simp
  · split at hk
    · rename_i _ hw
      cases w with
      | nil => simp at hw
      | cons x w => simp only [List.head?_cons, Option.some.injEq] at hw; subst hw; exact Or.inr ⟨w, e⟩
    · simp at hk

/-- A text whose last character is no bracket, before it no `#`, cannot be skipped. -/
theorem closes_none (m w : Str) (z : Char) (hm : '#' ∉ m) (hz : closing z = false) (hz2 : z ≠ '#') : closes (m ++ z :: w) = none := by
  show greedyRun closing closeK [] (m ++ z :: w) = _
  apply greedy_none
  intro u r e hu
  simp only [List.nil_append, closeK]
  split
  · cases hc : comment r with
    | none => rfl
    | some c =>
      exfalso
      obtain ⟨sp, hs, hr⟩ := comment_some r c hc
      have hzs : ∀ y, isS y = true → y ≠ z := by rintro y hy rfl; simp [closing, hy] at hz
      have hall : ∀ y ∈ u ++ sp, y ≠ z := by
        intro y hy
        rcases List.mem_append.1 hy with h | h
        · rintro rfl; rw [hu y h] at hz; simp at hz
        · exact hzs y (hs y h)
      rcases hr with rfl | ⟨t, rfl⟩
      · have : z ∈ u ++ r := by rw [← e]; simp
        exact hall z this rfl
      · have e2 : m ++ z :: w = (u ++ sp) ++ '#' :: t := by rw [e]; simp
        rcases List.append_eq_append_iff.1 e2 with ⟨as, h1, h2⟩ | ⟨bs, h1, h2⟩
        · cases as with
          | nil => simp only [List.nil_append, List.cons.injEq] at h2; exact hz2 h2.1
          | cons y as =>
            simp only [List.cons_append, List.cons.injEq] at h2
            exact hall y (by rw [h1]; simp) h2.1.symm
        · cases bs with
          | nil => simp only [List.nil_append, List.cons.injEq] at h2; exact hz2 h2.1.symm
          | cons y bs =>
            simp only [List.cons_append, List.cons.injEq] at h2
            exact hm (by rw [h1, ← h2.1]; simp)
  · rfl

/-- A name without quotes. -/
theorem plainName_ok (x : Char) (m b c : Str) (hx : x ≠ '\'' ∧ x ≠ '"' ∧ isS x = false) (hm : '#' ∉ m) (hn : '\n' ∉ m) (hlast : m = [] ∨ ∃ m' z, m = m' ++ [z] ∧ closing z = false)
    (hb : ∀ y ∈ b, closing y = true) (hl : b.getLast? = some ']') (hc : Comment c) : plainName (x :: m ++ (b ++ c)) = some (x :: m, b.count ']', stripped c) := by
  simp only [plainName, List.cons_append, hx.1, hx.2.1, hx.2.2, or_self, if_false, Bool.false_eq_true]
  apply lazy_first
  · intro y hy; simp only [dot, bne_iff_ne, ne_eq]; rintro rfl; exact hn hy
  · intro a w e hw
    rcases hlast with rfl | ⟨m', z, rfl, hz⟩
    · simp only [List.nil_eq, List.append_eq_nil_iff] at e; exact absurd e.2 hw
    · obtain ⟨w', rfl⟩ : ∃ w', w = w' ++ [z] := by
        rcases List.eq_nil_or_concat w with rfl | ⟨w', y, rfl⟩
        · exact absurd rfl hw
        · rw [List.concat_eq_append, ← List.append_assoc] at e
          have := List.append_inj' e rfl
          simp only [List.cons.injEq, and_true] at this
          exact ⟨w', by rw [List.concat_eq_append, this.2]⟩
      rw [List.append_assoc, List.singleton_append, closes_none w' _ z ?_ hz ?_]
      · rfl
      · intro h; apply hm; rw [e]; simp [h]
      · rintro rfl; apply hm; rw [e]; simp
  · rw [closes_ok b hb hl c hc]; rfl

theorem trailing (p : Char → Bool) : ∀ r : Str, ∃ r1 r2, r = r1 ++ r2 ∧ (∀ y ∈ r2, p y = true) ∧ (r1 = [] ∨ ∃ m z, r1 = m ++ [z] ∧ p z = false) := by
  intro r
  induction r using List.reverseRecOn with
  | nil => exact ⟨[], [], rfl, by simp, Or.inl rfl⟩
  | append_singleton l x ih =>
    cases hx : p x with
    | false => exact ⟨l ++ [x], [], by simp, by simp, Or.inr ⟨l, x, rfl, hx⟩⟩
    | true =>
      obtain ⟨r1, r2, e, h2, h1⟩ := ih
      refine ⟨r1, r2 ++ [x], by rw [e]; simp, ?_, h1⟩
      intro y hy
      rcases List.mem_append.1 hy with h | h
      · exact h2 y h
      · rw [List.mem_singleton.1 h]; exact hx

theorem leading (p : Char → Bool) : ∀ r : Str, (∀ y ∈ r, p y = true) ∨ ∃ u x t, r = u ++ x :: t ∧ (∀ y ∈ u, p y = true) ∧ p x = false := by
  intro r
  induction r with
  | nil => left; simp
  | cons x r ih =>
    cases hx : p x with
    | false => exact Or.inr ⟨[], x, r, rfl, by simp, hx⟩
    | true =>
      rcases ih with h | ⟨u, y, t, e, hu, hy⟩
      · left; intro z hz; rcases List.mem_cons.1 hz with rfl | hz; exacts [hx, h z hz]
      · exact Or.inr ⟨x :: u, y, t, by rw [e]; rfl, (by intro z hz; rcases List.mem_cons.1 hz with rfl | hz; exacts [hx, hu z hz]), hy⟩

theorem quote_none {R : Type} (q z : Char) (K : Str → Str → Option R) (m w : Str) (hm : q ∉ m) (hz : z ≠ q) (hzs : isS z = false) :
    greedyRun isS (fun sp r4 => lit q (K sp) r4) [] (m ++ z :: w) = none := by
  apply greedy_none
  intro u r e hu
  cases r with
  | nil => rfl
  | cons y r =>
    simp only [lit]
    split
    · rename_i hy
      subst hy
      exfalso
      rcases List.append_eq_append_iff.1 e with ⟨as, h1, h2⟩ | ⟨bs, h1, h2⟩
      · cases as with
        | nil => simp only [List.nil_append, List.cons.injEq] at h2; exact hz h2.1
        | cons x as =>
          simp only [List.cons_append, List.cons.injEq] at h2
          have := hu z (by rw [h1, h2.1]; simp)
          rw [this] at hzs; simp at hzs
      · cases bs with
        | nil => simp only [List.nil_append, List.cons.injEq] at h2; exact hz h2.1.symm
        | cons x bs =>
          simp only [List.cons_append, List.cons.injEq] at h2
          exact hm (by rw [h1, h2.1]; simp)
    · rfl

/-- A name in quotes. -/
theorem quotedName_ok (q : Char) (hqs : isS q = false) (v b c : Str) (hq : q ∉ v) (hn : '\n' ∉ v) (hv : ¬Blank v) (hb : ∀ y ∈ b, closing y = true) (hl : b.getLast? = some ']')
    (hc : Comment c) : quotedName q (q :: v ++ q :: (b ++ c)) = some (q :: v ++ [q], b.count ']', stripped c) := by
  rcases leading isS v with h | ⟨ws, x, r, rfl, hws, hx⟩
  · exact absurd h hv
  · obtain ⟨r1, r2, rfl, h2, h1⟩ := trailing isS r
    simp only [quotedName, lit, List.cons_append, if_true]
    rw [List.append_assoc]
    refine greedy_max isS _ _ ws _ [] hws (by intro y hy; simp only [List.cons_append, List.head?_cons, Option.some.injEq] at hy; rw [← hy]; exact hx) ?_
    simp only [List.cons_append, hx, Bool.false_eq_true, if_false, List.nil_append]
    rw [List.append_assoc]
    apply lazy_first
    · intro y hy; simp only [dot, bne_iff_ne, ne_eq]; rintro rfl; exact hn (by simp [hy])
    · intro a w e hw
      rcases h1 with rfl | ⟨m, z, rfl, hz⟩
      · simp only [List.nil_eq, List.append_eq_nil_iff] at e; exact absurd e.2 hw
      · obtain ⟨w', rfl⟩ : ∃ w', w = w' ++ [z] := by
          rcases List.eq_nil_or_concat w with rfl | ⟨w', y, rfl⟩
          · exact absurd rfl hw
          · rw [List.concat_eq_append, ← List.append_assoc] at e
            have := List.append_inj' e rfl
            simp only [List.cons.injEq, and_true] at this
            exact ⟨w', by rw [List.concat_eq_append, this.2]⟩
        rw [List.append_assoc, List.singleton_append]
        have hqe : q ∉ a ++ (w' ++ [z]) := by rw [← e]; intro h; apply hq; simp only [List.mem_append, List.mem_cons] at h ⊢; tauto
        apply quote_none
        · intro h; apply hqe; simp [h]
        · rintro rfl; apply hqe; simp
        · exact hz
    · refine greedy_max isS _ _ r2 _ [] h2 (by intro y hy; simp only [List.head?_cons, Option.some.injEq] at hy; rw [← hy]; exact hqs) ?_
      simp only [if_true]
      rw [closes_ok b hb hl c hc]
      simp

theorem marker_open (indent : Str) (hi : Blank indent) (a t : Str) (ha : ∀ y ∈ a, opening y = true) (ht : ∀ y, t.head? = some y → opening y = false) (d : ℕ) (hd : 1 ≤ d) (r : Str × ℕ × Str)
    (h : (quotedName '"' t).or ((quotedName '\'' t).or (plainName t)) = some r) :
    marker (indent ++ (List.replicate d '[' ++ (a ++ t))) = some (d + a.count '[', r) := by
  obtain ⟨d, rfl⟩ : ∃ k, d = k + 1 := ⟨d - 1, by omega⟩
  unfold marker
  refine greedy_max isS _ _ indent _ [] hi (by intro y hy; simp only [List.replicate_succ, List.cons_append, List.head?_cons, Option.some.injEq] at hy; rw [← hy]; decide) ?_
  simp only [List.replicate_succ, List.cons_append, lit, if_true]
  rw [← List.append_assoc]
  refine greedy_max opening _ _ (List.replicate d '[' ++ a) t [] ?_ ht ?_
  · intro y hy
    rcases List.mem_append.1 hy with h | h
    · rw [List.eq_of_mem_replicate h]; decide
    · exact ha y h
  · rw [h]
    simp only [List.nil_append, Option.map_some, List.count_append, List.count_replicate_self, Option.some.injEq, Prod.mk.injEq, and_true]
    omega

theorem closers (b : Str) (hb : ∀ y ∈ b, closing y = true) (d : ℕ) (hd : 1 ≤ d) : (∀ y ∈ b ++ List.replicate d ']', closing y = true) ∧ (b ++ List.replicate d ']').getLast? = some ']' ∧
    (b ++ List.replicate d ']').count ']' = d + b.count ']' := by
  refine ⟨?_, ?_, by simp only [List.count_append, List.count_replicate_self]; omega⟩
  · intro y hy
    rcases List.mem_append.1 hy with h | h
    · exact hb y h
    · rw [List.eq_of_mem_replicate h]; decide
  · obtain ⟨d, rfl⟩ : ∃ k, d = k + 1 := ⟨d - 1, by omega⟩
    rw [List.replicate_succ', ← List.append_assoc]; simp

theorem unquote_quoted (k : Char) (hk : k = '"' ∨ k = '\'') (v : Str) : unquote (k :: v ++ [k]) = some v := by
  have : (k :: v ++ [k]).getLast? = some k := by rw [List.getLast?_append]; rfl
  simp only [unquote, this]
  rcases hk with rfl | rfl <;> simp

theorem unquote_plain (x : Char) (m : Str) (hx : x ≠ '\'' ∧ x ≠ '"') : unquote (x :: m) = some (x :: m) := by
  simp [unquote, hx.1, hx.2]

/-- C193.  What a name that is written without quotes is read as: brackets at its ends count as brackets of the marker. -/
theorem plain_exact (indent : Str) (hi : Blank indent) (d : ℕ) (hd : 1 ≤ d) (a m b c : Str) (x : Char) (ha : ∀ y ∈ a, opening y = true) (hb : ∀ y ∈ b, closing y = true)
    (hx : opening x = false ∧ x ≠ '\'' ∧ x ≠ '"') (hm : '#' ∉ m) (hn : '\n' ∉ m) (hlast : m = [] ∨ ∃ m' z, m = m' ++ [z] ∧ closing z = false) (hc : Comment c) :
    read (written indent d (a ++ (x :: m ++ b)) c) = if a.count '[' = b.count ']' then .sect (d + a.count '[') (x :: m) (stripped c) else .nesting := by
  have hxs : isS x = false := by have := hx.1; simp only [opening, Bool.or_eq_false_iff] at this; exact this.2
  obtain ⟨h1, h2, h3⟩ := closers b hb d hd
  have hmk := marker_open indent hi a (x :: m ++ ((b ++ List.replicate d ']') ++ c)) ha (by intro y hy; simp only [List.cons_append, List.head?_cons, Option.some.injEq] at hy; rw [← hy]; exact hx.1)
    d hd (x :: m, d + b.count ']', stripped c) (by
      rw [plainName_ok x m _ c ⟨hx.2.1, hx.2.2, hxs⟩ hm hn hlast h1 h2 hc, h3]
      simp [quotedName, lit, hx.2.1, hx.2.2])
  have e : written indent d (a ++ (x :: m ++ b)) c = indent ++ (List.replicate d '[' ++ (a ++ (x :: m ++ ((b ++ List.replicate d ']') ++ c)))) := by
    simp [written]
  unfold read
  rw [e, hmk]
  simp only [Nat.add_left_cancel_iff]
  rw [unquote_plain x m hx.2]

/-- A name whose first and last character are ordinary. -/
def Ordinary (v : Str) : Prop := (∀ x, v.head? = some x → x ≠ '[' ∧ x ≠ '\x0c') ∧ ∀ x, v.getLast? = some x → x ≠ ']' ∧ x ≠ '\x0c'

/-- C193.  A section name that is not blank and is written in quotes, or whose first and last characters are no brackets (or form feeds), is read back with its depth and comment. -/
theorem name_read_back (indent : Str) (hi : Blank indent) (d : ℕ) (hd : 1 ≤ d) (v q c : Str) (hq : quote v = .ok q) (hv : ¬Blank v) (hs : q ≠ v ∨ Ordinary v) (hc : Comment c) :
    read (written indent d q c) = .sect d v (stripped c) := by
  have hv0 : v ≠ [] := by rintro rfl; exact hv (by simp [Blank])
  have hquoted : ∀ k, isS k = false → (k = '"' ∨ k = '\'') → k ∉ v → '\n' ∉ v → q = k :: (v ++ [k]) → read (written indent d q c) = .sect d v (stripped c) := by
    intro k hk hk2 hkv hnv hqe
    obtain ⟨h1, h2, h3⟩ := closers [] (by simp) d hd
    simp only [List.nil_append, List.count_nil, Nat.add_zero] at h1 h2 h3
    have hmk := marker_open indent hi [] (k :: v ++ k :: (List.replicate d ']' ++ c)) (by simp)
      (by intro y hy; simp only [List.cons_append, List.head?_cons, Option.some.injEq] at hy; rw [← hy]; rcases hk2 with rfl | rfl <;> decide)
      d hd (k :: v ++ [k], d, stripped c) (by
        have hn := quotedName_ok k hk v _ c hkv hnv hv h1 h2 hc
        rw [h3] at hn
        rcases hk2 with rfl | rfl
        · rw [hn]; rfl
        · rw [hn]
          have : quotedName '"' ('\'' :: v ++ '\'' :: (List.replicate d ']' ++ c)) = none := by simp [quotedName, lit]
          rw [this]; rfl)
    have e : written indent d q c = indent ++ (List.replicate d '[' ++ ([] ++ (k :: v ++ k :: (List.replicate d ']' ++ c)))) := by
      rw [hqe]; simp [written]
    unfold read
    rw [e, hmk]
    have hu := unquote_quoted k hk2 v
    simp only [List.count_nil, Nat.add_zero, if_true]
    rw [hu]
  have hsingle : '\n' ∉ v → singleQuote v = .ok q → read (written indent d q c) = .sect d v (stripped c) := by
    intro hnv hsq
    unfold singleQuote at hsq
    split at hsq
    · simp at hsq
    · rename_i hboth
      split at hsq
      · rename_i hdq
        simp only [Except.ok.injEq] at hsq
        exact hquoted '\'' (by decide) (Or.inr rfl) (fun h => hboth ⟨h, hdq⟩) hnv hsq.symm
      · rename_i hdq
        simp only [Except.ok.injEq] at hsq
        exact hquoted '"' (by decide) (Or.inl rfl) hdq hnv hsq.symm
  unfold quote at hq
  rw [if_neg hv0] at hq
  split at hq
  · simp at hq
  · rename_i hnv
    split at hq
    · rename_i hpl
      split at hq
      · exact hsingle hnv hq
      · rename_i hhash
        simp only [Except.ok.injEq] at hq
        subst hq
        rcases hs with hs | hs
        · exact absurd rfl hs
        · have hp := hpl.1
          simp only [plainEnds, Bool.and_eq_true, Bool.not_eq_true'] at hp
          cases v with
          | nil => exact absurd rfl hv0
          | cons x m =>
            have hx1 := hs.1 x rfl
            have hx2 : isPlus x = false := by simpa using hp.1
            simp only [isPlus, Bool.or_eq_false_iff, beq_eq_false_iff_ne, ne_eq] at hx2
            have hxo : opening x = false := by
              simp only [opening, isS, Bool.or_eq_false_iff, beq_eq_false_iff_ne, ne_eq]
              have h1 := hx1.1; have h2 := hx1.2; tauto
            have := plain_exact indent hi d hd [] m [] c x (by simp) (by simp) ⟨hxo, hx2.1.2, hx2.2⟩ (fun h => hhash (by simp [h])) (fun h => hnv (by simp [h])) (by
              rcases List.eq_nil_or_concat m with rfl | ⟨m', z, rfl⟩
              · exact Or.inl rfl
              · right
                refine ⟨m', z, by rw [List.concat_eq_append], ?_⟩
                have hl : (x :: m'.concat z).getLast? = some z := by rw [List.concat_eq_append, ← List.cons_append, List.getLast?_append]; rfl
                have hz1 := hs.2 z hl
                have hz2 : isPlus z = false := by have := hp.2; rw [hl] at this; simpa using this
                simp only [isPlus, Bool.or_eq_false_iff, beq_eq_false_iff_ne, ne_eq] at hz2
                simp only [closing, isS, Bool.or_eq_false_iff, beq_eq_false_iff_ne, ne_eq]
                have h1 := hz1.1; have h2 := hz1.2; tauto) hc
            simpa using this
    · exact hsingle hnv hq

/-- C193.  No line at all is read as a section with a blank name, so a section whose name is blank or empty is not read back. -/
theorem never_blank (line : Str) (d : ℕ) (v c : Str) (h : read line = .sect d v c) : ¬Blank v := by
  unfold read at h
  cases hm : marker line with
  | none => rw [hm] at h; simp at h
  | some r =>
    obtain ⟨a, n, b, c'⟩ := r
    rw [hm] at h
    simp only at h
    split at h
    · cases hu : unquote n with
      | none => rw [hu] at h; simp at h
      | some w =>
        rw [hu] at h
        simp only [Read.sect.injEq] at h
        obtain ⟨_, rfl, _⟩ := h
        unfold marker at hm
        obtain ⟨_, s, _, _, h1⟩ := greedy_some _ _ _ _ _ hm
        cases s with
        | nil => simp [lit] at h1
        | cons y s =>
          simp only [lit] at h1
          split at h1
          · obtain ⟨_, t, _, _, h2⟩ := greedy_some _ _ _ _ _ h1
            have hq : ∀ q p, isS q = false → (q = '"' ∨ q = '\'') → quotedName q t = some p → p.1 = n → ¬Blank w := by
              intro q p hqs hq2 hp hpn
              unfold quotedName at hp
              cases t with
              | nil => simp [lit] at hp
              | cons z t =>
                simp only [lit] at hp
                split at hp
                · obtain ⟨sp, r1, _, _, h3⟩ := greedy_some _ _ _ _ _ hp
                  cases r1 with
                  | nil => simp at h3
                  | cons x r2 =>
                    simp only at h3
                    split at h3
                    · simp at h3
                    · rename_i hx
                      obtain ⟨acc, r3, _, _, h4⟩ := lazy_some _ _ _ _ _ h3
                      obtain ⟨sp2, r4, _, _, h5⟩ := greedy_some _ _ _ _ _ h4
                      cases r4 with
                      | nil => simp [lit] at h5
                      | cons y2 r4 =>
                        simp only [lit] at h5
                        split at h5
                        · cases hcl : closes r4 with
                          | none => rw [hcl] at h5; simp at h5
                          | some cl =>
                            rw [hcl] at h5
                            simp only [Option.map_some, Option.some.injEq] at h5
                            rw [← h5] at hpn
                            simp only [List.nil_append] at hpn
                            rw [← hpn] at hu
                            rw [unquote_quoted q hq2] at hu
                            simp only [Option.some.injEq] at hu
                            have hw : w = sp ++ x :: (acc ++ sp2) := hu.symm
                            intro hbl
                            exact hx (hbl x (by rw [hw]; simp))
                        · simp at h5
                · simp at hp
            cases hd : quotedName '"' t with
            | some p =>
              rw [hd] at h2
              simp only [Option.some_or, Option.map_some, Option.some.injEq, Prod.mk.injEq] at h2
              exact hq '"' p (by decide) (Or.inl rfl) hd h2.2.1
            | none =>
              rw [hd, Option.none_or] at h2
              cases hs : quotedName '\'' t with
              | some p =>
                rw [hs] at h2
                simp only [Option.some_or, Option.map_some, Option.some.injEq, Prod.mk.injEq] at h2
                exact hq '\'' p (by decide) (Or.inr rfl) hs h2.2.1
              | none =>
                rw [hs, Option.none_or] at h2
                unfold plainName at h2
                cases t with
                | nil => simp at h2
                | cons x r =>
                  simp only at h2
                  split at h2
                  · simp at h2
                  · rename_i hx
                    cases hlz : lazyRun dot (fun acc r2 => (closes r2).map (fun p => (x :: acc, p.1, p.2))) [] r with
                    | none => rw [hlz] at h2; simp at h2
                    | some p =>
                      obtain ⟨acc, r3, _, _, h4⟩ := lazy_some _ _ _ _ _ hlz
                      rw [hlz] at h2
                      simp only [Option.map_some, Option.some.injEq, Prod.mk.injEq] at h2
                      cases hcl : closes r3 with
                      | none => rw [hcl] at h4; simp at h4
                      | some cl =>
                        rw [hcl] at h4
                        simp only [List.nil_append, Option.map_some, Option.some.injEq] at h4
                        have hn : n = x :: acc := by rw [← h2.2.1, ← h4]
                        rw [hn, unquote_plain x acc ⟨fun e => hx (Or.inl e), fun e => hx (Or.inr (Or.inl e))⟩] at hu
                        simp only [Option.some.injEq] at hu
                        intro hbl
                        exact hx (Or.inr (Or.inr (hbl x (by rw [← hu]; simp))))
          · simp at h1
    · simp at h

theorem comment_sound (s c : Str) (h : comment s = some c) : Comment s ∧ c = stripped s ∨ (Blank s ∧ c = []) := by
  unfold comment at h
  obtain ⟨u, w, e, hu, hk⟩ := greedy_some _ _ _ _ _ h
  split at hk
  · rename_i hw
    right
    simp only [Option.some.injEq] at hk
    exact ⟨by rw [e, hw]; simpa [Blank] using hu, hk.symm⟩
  · split at hk
    · rename_i _ hw
      left
      simp only [Option.some.injEq] at hk
      cases w with
      | nil => simp at hw
      | cons x w =>
        simp only [List.head?_cons, Option.some.injEq] at hw
        subst hw
        refine ⟨Or.inr ⟨u, w, e, hu⟩, ?_⟩
        rw [e, stripped, List.dropWhile_append_of_pos (by simpa using hu), ← hk]
        rfl
    · simp at hk

theorem closes_sound (s c : Str) (n : ℕ) (h : closes s = some (n, c)) :
    ∃ b t, s = b ++ t ∧ (∀ y ∈ b, closing y = true) ∧ b.getLast? = some ']' ∧ n = b.count ']' ∧ (Comment t ∨ Blank t) ∧ c = stripped t := by
  unfold closes at h
  obtain ⟨u, w, e, hu, hk⟩ := greedy_some _ _ _ _ _ h
  simp only [List.nil_append] at hk
  split at hk
  · rename_i hl
    cases hc : comment w with
    | none => rw [hc] at hk; simp at hk
    | some c' =>
      rw [hc] at hk
      simp only [Option.map_some, Option.some.injEq, Prod.mk.injEq] at hk
      rcases comment_sound w c' hc with ⟨h1, h2⟩ | ⟨h1, h2⟩
      · exact ⟨u, w, e, hu, hl, hk.1.symm, Or.inl h1, by rw [← hk.2, h2]⟩
      · refine ⟨u, w, e, hu, hl, hk.1.symm, Or.inr h1, ?_⟩
        rw [← hk.2, h2, stripped]
        have := List.dropWhile_append_of_pos (p := isS) (l₁ := w) (l₂ := []) (by simpa [Blank] using h1)
        simpa using this.symm
  · simp at hk

/-- C193.  A line that is taken as a section marker is spaces, opening brackets (and spaces), the name with its quotes, closing brackets (and spaces, a bracket last), spaces and a comment: the depths are
the numbers of brackets. -/
theorem marker_sound (line : Str) (a b : ℕ) (n c : Str) (h : marker line = some (a, n, b, c)) :
    ∃ indent o cl t, line = indent ++ ('[' :: (o ++ (n ++ (cl ++ t)))) ∧ Blank indent ∧ (∀ y ∈ o, opening y = true) ∧ a = o.count '[' + 1 ∧ n ≠ [] ∧
      (∀ y ∈ cl, closing y = true) ∧ cl.getLast? = some ']' ∧ b = cl.count ']' ∧ (Comment t ∨ Blank t) ∧ c = stripped t := by
  unfold marker at h
  obtain ⟨indent, s, e0, hind, h1⟩ := greedy_some _ _ _ _ _ h
  cases s with
  | nil => simp [lit] at h1
  | cons y s =>
    simp only [lit] at h1
    split at h1
    · rename_i hy
      subst hy
      obtain ⟨o, t, e1, ho, h2⟩ := greedy_some _ _ _ _ _ h1
      have hname : ∀ p : Str × ℕ × Str, (quotedName '"' t = some p ∨ quotedName '\'' t = some p ∨ plainName t = some p) → ∃ r, t = p.1 ++ r ∧ p.1 ≠ [] ∧ closes r = some (p.2.1, p.2.2) := by
        have hq : ∀ q (p : Str × ℕ × Str), quotedName q t = some p → ∃ r, t = p.1 ++ r ∧ p.1 ≠ [] ∧ closes r = some (p.2.1, p.2.2) := by
          intro q p hp
          unfold quotedName at hp
          cases t with
          | nil => simp [lit] at hp
          | cons z t =>
            simp only [lit] at hp
            split at hp
            · rename_i hz
              subst hz
              obtain ⟨sp, r1, e2, _, h3⟩ := greedy_some _ _ _ _ _ hp
              cases r1 with
              | nil => simp at h3
              | cons x r2 =>
                simp only at h3
                split at h3
                · simp at h3
                · obtain ⟨acc, r3, e3, _, h4⟩ := lazy_some _ _ _ _ _ h3
                  obtain ⟨sp2, r4, e4, _, h5⟩ := greedy_some _ _ _ _ _ h4
                  cases r4 with
                  | nil => simp [lit] at h5
                  | cons y2 r4 =>
                    simp only [lit] at h5
                    split at h5
                    · rename_i hy2
                      subst hy2
                      cases hcl : closes r4 with
                      | none => rw [hcl] at h5; simp at h5
                      | some cl =>
                        rw [hcl] at h5
                        simp only [Option.map_some, Option.some.injEq, List.nil_append] at h5
                        refine ⟨r4, ?_, by rw [← h5]; simp, by rw [hcl, ← h5]⟩
                        rw [← h5, e2, e3, e4]; simp
                    · simp at h5
            · simp at hp
        rintro p (hp | hp | hp)
        · exact hq _ p hp
        · exact hq _ p hp
        · unfold plainName at hp
          cases t with
          | nil => simp at hp
          | cons x r =>
            simp only at hp
            split at hp
            · simp at hp
            · obtain ⟨acc, r3, e3, _, h4⟩ := lazy_some _ _ _ _ _ hp
              cases hcl : closes r3 with
              | none => rw [hcl] at h4; simp at h4
              | some cl =>
                rw [hcl] at h4
                simp only [Option.map_some, Option.some.injEq, List.nil_append] at h4
                exact ⟨r3, by rw [← h4, e3]; simp, by rw [← h4]; simp, by rw [hcl, ← h4]⟩
      obtain ⟨p, hp, hpe⟩ : ∃ p, (quotedName '"' t = some p ∨ quotedName '\'' t = some p ∨ plainName t = some p) ∧ ((o.count '[' + 1, p.1, p.2.1, p.2.2) : ℕ × Str × ℕ × Str) = (a, n, b, c) := by
        cases h3 : quotedName '"' t with
        | some p => rw [h3] at h2; exact ⟨p, Or.inl rfl, by simpa using h2⟩
        | none =>
          rw [h3, Option.none_or] at h2
          cases h4 : quotedName '\'' t with
          | some p => rw [h4] at h2; exact ⟨p, Or.inr (Or.inl rfl), by simpa using h2⟩
          | none =>
            rw [h4, Option.none_or] at h2
            cases h5 : plainName t with
            | some p => rw [h5] at h2; exact ⟨p, Or.inr (Or.inr rfl), by simpa using h2⟩
            | none => rw [h5] at h2; simp at h2
      obtain ⟨r, e5, hne, hcl⟩ := hname p hp
      simp only [Prod.mk.injEq] at hpe
      obtain ⟨cl, t2, e6, h6, h7, h8, h9, h10⟩ := closes_sound r _ _ hcl
      refine ⟨indent, o, cl, t2, ?_, hind, ho, hpe.1.symm, by rw [← hpe.2.1]; exact hne, h6, h7, by rw [← hpe.2.2.1, h8], h9, by rw [← hpe.2.2.2, h10]⟩
      rw [e0, e1, e5, e6, ← hpe.2.1]
    · simp at h1

/-- Cases: a plain name with spaces and brackets inside, one that needs quotes; names that are read as another section, refused, or lost. -/
theorem example_marker :
    read "  [[my [x] section]] # note".toList = .sect 2 "my [x] section".toList "# note".toList ∧
    (quote "a, b]".toList = .ok "\"a, b]\"".toList ∧ read "[\"a, b]\"]".toList = .sect 1 "a, b]".toList []) ∧
    (quote "[a]".toList = .ok "[a]".toList ∧ read "[[a]]".toList = .sect 2 "a".toList []) ∧
    (quote "f[0]".toList = .ok "f[0]".toList ∧ read "[f[0]]".toList = .nesting) ∧ (quote [] = .ok "\"\"".toList ∧ read "[\"\"]".toList = .other) := by
  refine ⟨by decide +kernel, ⟨by rfl, by decide +kernel⟩, ⟨by rfl, by decide +kernel⟩, ⟨by rfl, by decide +kernel⟩, by rfl, by decide +kernel⟩

end Verif.ConfigMarker
