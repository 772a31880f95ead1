import Mathlib.Data.List.Basic
import Mathlib.Data.Nat.Digits.Defs
import Mathlib.Logic.Function.Iterate
import Mathlib.Tactic.Linarith
import Mathlib.Tactic.NormNum

/-!
# Names of successive masks (astropysics/gui/spectarget.py 511-541, 586) (C200)

`SpecTarget._makemaskbutton_fired` counts up the number at the end of the mask's file name and of its short name.  Texts are lists of characters.  The Traits rules are those of C197: the handler
`_maskshortname_changed` gets the old and the new value, and only if they differ.
-/

namespace Verif.MaskNames

abbrev Text := List Char

/-- C's `isspace`. -/
def ws (c : Char) : Bool := c = ' ' ∨ c = '\t' ∨ c = '\n' ∨ c = '\r' ∨ c.toNat = 11 ∨ c.toNat = 12

def sign : Text → Bool × Text
  | '-' :: r => (true, r)
  | '+' :: r => (false, r)
  | s => (false, s)

/-- Python 2's `int(s)`; `none` is a ValueError.  White space is skipped before the sign, after the sign and at the end. -/
def parse (s : Text) : Option ℤ :=
  let g := sign (s.dropWhile ws)
  let t := g.2.dropWhile ws
  let ds := t.takeWhile Char.isDigit
  if ds = [] then none
  else if (t.dropWhile Char.isDigit).all ws then some (if g.1 then -(Nat.ofDigitChars 10 ds 0 : ℤ) else (Nat.ofDigitChars 10 ds 0 : ℤ))
  else none

/-- `str(k)`. -/
def str (k : ℤ) : Text := if k < 0 then '-' :: Nat.toDigits 10 k.natAbs else Nat.toDigits 10 k.natAbs

/-- The loop over the cuts, spectarget.py 521-530: what is before the first cut whose rest is a number, and the number. -/
def find : Text → Option (Text × ℤ)
  | [] => (parse []).map fun k => ([], k)
  | c :: r => match parse (c :: r) with
    | some k => some ([], k)
    | none => (find r).map fun q => (c :: q.1, q.2)

/-- The next name, spectarget.py 520-530 and 532-541. -/
def next (s : Text) : Text :=
  match find s with
  | some (p, k) => p ++ str (k + 1)
  | none => s

/-- The file that is written, spectarget.py 590. -/
def file (s : Text) : Text := if ['.', 'i', 'n'] <:+ s then s else s ++ ['.', 'i', 'n']

/-- Setting `maskshortname` to `v`, with `_maskshortname_changed`, spectarget.py 511-514: the parameter called `new` is the old value. -/
def assign (max : ℕ) (cur v : Text) : Text :=
  if v = cur then cur
  else if h : max < cur.length then assign max v (cur.take max)
  else v
termination_by (if max < cur.length then 1 else 0) + (if max < v.length then 1 else 0)
decreasing_by
  have : ¬ max < (cur.take max).length := by simp
  rw [if_pos h, if_neg this]
  split <;> omega

/-- The short name after the button, spectarget.py 520-530. -/
def nextShort (max : ℕ) (s : Text) : Text := assign max s (next s)

/-! ## Specification -/

/-- The name ends in a digit, or in a digit and white space. -/
def Numbered (s : Text) : Prop := ∃ a d b, s = a ++ d :: b ∧ d.isDigit = true ∧ b.all ws = true

/-- What may stand before a number that is counted up as it is written: nothing, or something that ends neither in a digit nor in a sign nor in white space. -/
def Stem (p : Text) : Prop := ∀ c, p.getLast? = some c → c.isDigit = false ∧ c ≠ '-' ∧ c ≠ '+' ∧ ws c = false

/-! ## Proofs -/

theorem ws_digit (c : Char) (h : c.isDigit = true) : ws c = false := by
  simp only [Char.isDigit, Bool.and_eq_true, decide_eq_true_eq] at h
  obtain ⟨h1, h2⟩ := h
  have h3 : 48 ≤ c.toNat := by exact_mod_cast h1
  simp only [ws, decide_eq_false_iff_not]
  rintro (e | e | e | e | e | e) <;> first | (subst e; revert h3; decide) | omega

theorem digit_not_sign (c : Char) (h : c.isDigit = true) : c ≠ '-' ∧ c ≠ '+' := by
  constructor <;> rintro rfl <;> revert h <;> decide

theorem sign_digit (c : Char) (r : Text) (h : c.isDigit = true) : sign (c :: r) = (false, c :: r) := by
  obtain ⟨h1, h2⟩ := digit_not_sign c h
  unfold sign
  split
  · rename_i e; simp only [List.cons.injEq] at e; exact absurd e.1 h1
  · rename_i e; simp only [List.cons.injEq] at e; exact absurd e.1 h2
  · rfl

theorem takeWhile_all {p : Char → Bool} (l b : Text) (h : l.all p = true) (hb : ∀ c r, b = c :: r → p c = false) : (l ++ b).takeWhile p = l ∧ (l ++ b).dropWhile p = b := by
  induction l with
  | nil =>
    cases b with
    | nil => simp
    | cons c r => simp [hb c r rfl]
  | cons a l ih =>
    simp only [List.all_cons, Bool.and_eq_true] at h
    obtain ⟨i1, i2⟩ := ih h.2
    simp [h.1, i1, i2]

theorem parse_digits (ds b : Text) (h : ds ≠ []) (hd : ds.all Char.isDigit = true) (hb : b.all ws = true) : parse (ds ++ b) = some (Nat.ofDigitChars 10 ds 0 : ℤ) := by
  have hb' : ∀ c r, b = c :: r → c.isDigit = false := by
    rintro c r rfl
    simp only [List.all_cons, Bool.and_eq_true] at hb
    by_contra hc
    rw [Bool.not_eq_false] at hc
    rw [ws_digit c hc] at hb
    exact absurd hb.1 (by simp)
  obtain ⟨t1, t2⟩ := takeWhile_all (p := Char.isDigit) ds b hd hb'
  obtain ⟨c, r, rfl⟩ := List.exists_cons_of_ne_nil h
  have hc : c.isDigit = true := by simp only [List.all_cons, Bool.and_eq_true] at hd; exact hd.1
  have e1 : ((c :: r) ++ b).dropWhile ws = (c :: r) ++ b := by simp [ws_digit c hc]
  unfold parse
  rw [e1]
  simp only [List.cons_append]
  rw [sign_digit c (r ++ b) hc]
  simp only
  rw [← List.cons_append, e1, t1, t2]
  simp [hb]

theorem parse_neg (ds : Text) (h : ds ≠ []) (hd : ds.all Char.isDigit = true) : parse ('-' :: ds) = some (-(Nat.ofDigitChars 10 ds 0 : ℤ)) := by
  obtain ⟨t1, t2⟩ := takeWhile_all (p := Char.isDigit) ds [] hd (by simp)
  rw [List.append_nil] at t1 t2
  obtain ⟨c, r, rfl⟩ := List.exists_cons_of_ne_nil h
  have hc : c.isDigit = true := by simp only [List.all_cons, Bool.and_eq_true] at hd; exact hd.1
  have e1 : (c :: r).dropWhile ws = c :: r := by simp [ws_digit c hc]
  have e0 : ('-' :: c :: r).dropWhile ws = '-' :: c :: r := by simp [show ws '-' = false by decide]
  unfold parse
  rw [e0]
  simp only [sign]
  rw [e1, t1, t2]
  simp

theorem digits_all (n : ℕ) : (Nat.toDigits 10 n).all Char.isDigit = true := by
  rw [List.all_eq_true]; intro c hc; exact Nat.isDigit_of_mem_toDigits (by norm_num) (by norm_num) hc

theorem parse_str (k : ℤ) : parse (str k) = some k := by
  unfold str
  split
  · rw [parse_neg _ Nat.toDigits_ne_nil (digits_all _)]
    simp only [Nat.ofDigitChars_toDigits (b := 10) (by norm_num) (by norm_num), zero_mul, Option.some.injEq]
    omega
  · have := parse_digits (Nat.toDigits 10 k.natAbs) [] Nat.toDigits_ne_nil (digits_all _) (by simp)
    rw [List.append_nil] at this
    rw [this]
    simp only [Nat.ofDigitChars_toDigits (b := 10) (by norm_num) (by norm_num), Option.some.injEq]
    omega

theorem mem_dropWhile {p : Char → Bool} (l : Text) (c : Char) (h : c ∈ l) : p c = true ∨ c ∈ l.dropWhile p := by
  induction l with
  | nil => simp at h
  | cons a l ih =>
    by_cases ha : p a = true
    · rw [List.dropWhile_cons_of_pos ha]
      rcases List.mem_cons.1 h with rfl | h
      · exact .inl ha
      · exact ih h
    · rw [List.dropWhile_cons_of_neg ha]; exact .inr h

/-- What is read as a number is made of digits, white space and signs, and ends in a digit and white space. -/
theorem parse_sound (t : Text) (k : ℤ) (h : parse t = some k) : (∀ c ∈ t, c.isDigit = true ∨ c = '-' ∨ c = '+' ∨ ws c = true) ∧ Numbered t := by
  unfold parse at h
  simp only at h
  split at h
  · cases h
  · rename_i hne
    split at h
    · rename_i hall
      set g := sign (t.dropWhile ws) with hg
      set u := g.2.dropWhile ws with hu
      have hsg : ∃ x, t.dropWhile ws = x ++ g.2 ∧ ∀ c ∈ x, c = '-' ∨ c = '+' := by
        rw [hg]; unfold sign
        split
        · rename_i r e; exact ⟨['-'], by rw [e]; rfl, by simp⟩
        · rename_i r e; exact ⟨['+'], by rw [e]; rfl, by simp⟩
        · exact ⟨[], by simp, by simp⟩
      obtain ⟨x, hx, hxs⟩ := hsg
      constructor
      · intro c hc
        rcases mem_dropWhile (p := ws) t c hc with h1 | h1
        · exact .inr (.inr (.inr h1))
        · rw [hx, List.mem_append] at h1
          rcases h1 with h1 | h1
          · rcases hxs c h1 with h2 | h2
            · exact .inr (.inl h2)
            · exact .inr (.inr (.inl h2))
          · rcases mem_dropWhile (p := ws) g.2 c h1 with h2 | h2
            · exact .inr (.inr (.inr h2))
            · rcases mem_dropWhile (p := Char.isDigit) u c h2 with h3 | h3
              · exact .inl h3
              · exact .inr (.inr (.inr (List.all_eq_true.1 hall c h3)))
      · have e1 : t = t.takeWhile ws ++ (x ++ (g.2.takeWhile ws ++ (u.takeWhile Char.isDigit ++ u.dropWhile Char.isDigit))) := by
          rw [List.takeWhile_append_dropWhile, hu, List.takeWhile_append_dropWhile, ← hx, List.takeWhile_append_dropWhile]
        obtain ⟨ini, d, hd⟩ : ∃ ini d, u.takeWhile Char.isDigit = ini ++ [d] := ⟨_, _, (List.dropLast_append_getLast hne).symm⟩
        refine ⟨t.takeWhile ws ++ (x ++ (g.2.takeWhile ws ++ ini)), d, u.dropWhile Char.isDigit, ?_, ?_, hall⟩
        · conv_lhs => rw [e1, hd]
          simp
        · have : d ∈ u.takeWhile Char.isDigit := by rw [hd]; simp
          exact List.all_eq_true.1 (List.all_takeWhile (p := Char.isDigit) (l := u)) d this
    · cases h

theorem numbered_append (a t : Text) (h : Numbered t) : Numbered (a ++ t) := by
  obtain ⟨x, d, b, rfl, h1, h2⟩ := h
  exact ⟨a ++ x, d, b, by simp, h1, h2⟩

theorem find_none (s : Text) : find s = none ↔ ¬ Numbered s := by
  induction s with
  | nil =>
    simp only [find]
    constructor
    · rintro _ ⟨a, d, b, h, _⟩; simp at h
    · intro _; rfl
  | cons c r ih =>
    unfold find
    cases hp : parse (c :: r) with
    | some k => simp only [reduceCtorEq, false_iff, not_not]; exact (parse_sound _ k hp).2
    | none =>
      simp only [Option.map_eq_none_iff, ih]
      constructor
      · rintro h ⟨a, d, b, e, h1, h2⟩
        cases a with
        | nil =>
          simp only [List.nil_append] at e
          have := parse_digits [d] b (by simp) (by simp [h1]) h2
          rw [List.singleton_append, ← e, hp] at this
          cases this
        | cons x a =>
          simp only [List.cons_append, List.cons.injEq] at e
          exact h ⟨a, d, b, e.2, h1, h2⟩
      · intro h h'
        exact h (numbered_append [c] r h')

theorem parse_nil : parse [] = none := rfl

theorem find_append (p t : Text) (m : ℤ) (h : parse t = some m) : ∃ p' k', find (p ++ t) = some (p', k') ∧ p'.length ≤ p.length ∧ (p'.length = p.length → p' = p ∧ k' = m) := by
  induction p with
  | nil =>
    cases t with
    | nil => rw [parse_nil] at h; cases h
    | cons c r => exact ⟨[], m, by simp [find, h], le_refl _, fun _ => ⟨rfl, rfl⟩⟩
  | cons a p ih =>
    obtain ⟨p', k', e, h1, h2⟩ := ih
    simp only [List.cons_append, find]
    cases hp : parse (a :: (p ++ t)) with
    | some k => exact ⟨[], k, rfl, by simp, by simp⟩
    | none =>
      refine ⟨a :: p', k', by simp [e], by simpa using h1, ?_⟩
      intro hl
      obtain ⟨e1, e2⟩ := h2 (by simpa using hl)
      exact ⟨by rw [e1], e2⟩

theorem next_step (s p : Text) (k : ℤ) (h : find s = some (p, k)) : ∃ p' k', find (next s) = some (p', k') ∧ (p'.length < p.length ∨ (p'.length = p.length ∧ k' = k + 1)) := by
  have : next s = p ++ str (k + 1) := by simp [next, h]
  rw [this]
  obtain ⟨p', k', e, h1, h2⟩ := find_append p (str (k + 1)) (k + 1) (parse_str _)
  refine ⟨p', k', e, ?_⟩
  rcases lt_or_eq_of_le h1 with h | h
  · exact .inl h
  · exact .inr ⟨h, (h2 h).2⟩

theorem iterate_find (s p : Text) (k : ℤ) (h : find s = some (p, k)) (n : ℕ) :
    ∃ p' k', find (next^[n + 1] s) = some (p', k') ∧ (p'.length < p.length ∨ (p'.length = p.length ∧ k < k')) := by
  induction n generalizing s p k with
  | zero =>
    obtain ⟨p', k', e, h1⟩ := next_step s p k h
    refine ⟨p', k', e, ?_⟩
    rcases h1 with h1 | ⟨h1, h2⟩
    · exact .inl h1
    · exact .inr ⟨h1, by omega⟩
  | succ n ih =>
    obtain ⟨p1, k1, e1, h1⟩ := next_step s p k h
    obtain ⟨p2, k2, e2, h2⟩ := ih (next s) p1 k1 e1
    refine ⟨p2, k2, e2, ?_⟩
    rcases h1 with h1 | ⟨h1, h1'⟩ <;> rcases h2 with h2 | ⟨h2, h2'⟩
    · exact .inl (by omega)
    · exact .inl (by omega)
    · exact .inl (by omega)
    · exact .inr ⟨by omega, by omega⟩

theorem next_numbered (s : Text) (h : Numbered s) : Numbered (next s) := by
  by_contra hn
  rw [← find_none] at hn
  cases hf : find s with
  | none => exact (find_none s).1 hf h
  | some q =>
    obtain ⟨p', k', e, _⟩ := next_step s q.1 q.2 (by rw [hf])
    rw [hn] at e; cases e

theorem iterate_numbered (s : Text) (h : Numbered s) (n : ℕ) : Numbered (next^[n] s) := by
  induction n with
  | zero => exact h
  | succ n ih => rw [Function.iterate_succ_apply']; exact next_numbered _ ih

/-- C200.  If the name ends in a digit, the names of all masks made one after the other are different, however many. -/
theorem names_distinct (s : Text) (h : Numbered s) (i j : ℕ) (hij : i < j) : next^[i] s ≠ next^[j] s := by
  intro e
  have hn := iterate_numbered s h i
  cases hf : find (next^[i] s) with
  | none => exact (find_none _).1 hf hn
  | some q =>
    obtain ⟨n, rfl⟩ : ∃ n, j = n + 1 + i := ⟨j - i - 1, by omega⟩
    obtain ⟨p', k', e', h'⟩ := iterate_find _ q.1 q.2 (by rw [hf]) n
    rw [← Function.iterate_add_apply, ← e, hf, Option.some.injEq] at e'
    subst e'
    simp at h'

/-- C200.  And so are the files. -/
theorem files_distinct (s : Text) (h : Numbered s) (i j : ℕ) (hij : i < j) : file (next^[i] s) ≠ file (next^[j] s) := by
  have hin : ∀ n, ¬ ['.', 'i', 'n'] <:+ next^[n] s := by
    intro n
    have hnum := iterate_numbered s h n
    rintro ⟨a, e⟩
    obtain ⟨x, d, b, e2, h1, h2⟩ := hnum
    have hb2 : ∀ c ∈ b, ws c = true := List.all_eq_true.1 h2
    have : (a ++ ['.', 'i', 'n']).getLast? = (x ++ d :: b).getLast? := by rw [e, e2]
    rw [List.getLast?_append, List.getLast?_append] at this
    cases hbl : b.getLast? with
    | none =>
      rw [List.getLast?_eq_none_iff] at hbl
      subst hbl
      simp at this
      subst this; revert h1; decide
    | some c =>
      have hcb : ws c = true := hb2 c (List.mem_of_getLast? hbl)
      have e3 : (d :: b).getLast? = some c := by rw [List.getLast?_cons, hbl]; rfl
      rw [e3] at this
      simp at this
      subst this; revert hcb; decide
  unfold file
  rw [if_neg (hin i), if_neg (hin j)]
  intro e
  exact names_distinct s h i j hij (List.append_cancel_right e)

/-- C200.  Otherwise the name stays as it is, so the next mask overwrites the last one's file. -/
theorem unnumbered_stays (s : Text) : next s = s ↔ ¬ Numbered s := by
  constructor
  · intro e h
    exact names_distinct s h 0 1 (by norm_num) (by simpa using e.symm)
  · intro h
    simp [next, (find_none s).2 h]

theorem find_stem (p t : Text) (hp : Stem p) (m : ℤ) (h : parse t = some m) : find (p ++ t) = some (p, m) := by
  induction p with
  | nil =>
    cases t with
    | nil => rw [parse_nil] at h; cases h
    | cons c r => simp [find, h]
  | cons a p ih =>
    have hp' : Stem p := by
      intro c hc
      apply hp c
      rw [List.getLast?_cons, hc]; rfl
    have hnone : parse (a :: (p ++ t)) = none := by
      cases hq : parse (a :: (p ++ t)) with
      | none => rfl
      | some k =>
        exfalso
        obtain ⟨hs, _⟩ := parse_sound _ k hq
        have hne : a :: p ≠ [] := by simp
        have hl : (a :: p).getLast? = some ((a :: p).getLast hne) := List.getLast?_eq_some_getLast hne
        obtain ⟨q1, q2, q3, q4⟩ := hp _ hl
        have hm : (a :: p).getLast hne ∈ a :: (p ++ t) := by
          rw [← List.cons_append]; exact List.mem_append_left _ (List.getLast_mem hne)
        rcases hs _ hm with h | h | h | h
        · rw [q1] at h; cases h
        · exact q2 h
        · exact q3 h
        · rw [q4] at h; cases h
    simp [find, hnone, ih hp']

/-- C200.  If the number follows a letter (or nothing), the names count up from it; leading zeros are lost. -/
theorem counts (p ds : Text) (hp : Stem p) (hne : ds ≠ []) (hd : ds.all Char.isDigit = true) (i : ℕ) : next^[i + 1] (p ++ ds) = p ++ Nat.toDigits 10 (Nat.ofDigitChars 10 ds 0 + i + 1) := by
  have hstr : ∀ n : ℕ, str (n : ℤ) = Nat.toDigits 10 n := by intro n; simp [str]
  induction i with
  | zero =>
    have h := parse_digits ds [] hne hd (by simp)
    rw [List.append_nil] at h
    show next (p ++ ds) = _
    simp only [next, find_stem p ds hp _ h]
    rw [show ((Nat.ofDigitChars 10 ds 0 : ℤ) + 1) = ((Nat.ofDigitChars 10 ds 0 + 0 + 1 : ℕ) : ℤ) by push_cast; ring, hstr]
  | succ i ih =>
    rw [Function.iterate_succ_apply', ih]
    have h := parse_str ((Nat.ofDigitChars 10 ds 0 + i + 1 : ℕ) : ℤ)
    rw [hstr] at h
    simp only [next, find_stem p _ hp _ h]
    rw [show (((Nat.ofDigitChars 10 ds 0 + i + 1 : ℕ) : ℤ) + 1) = ((Nat.ofDigitChars 10 ds 0 + (i + 1) + 1 : ℕ) : ℤ) by push_cast; ring, hstr]

/-- C200.  If a dash is before the number, it is a minus sign and the number counts down. -/
theorem dash_counts_down (p : Text) (hp : Stem p) (n : ℕ) : next (p ++ '-' :: Nat.toDigits 10 (n + 2)) = p ++ '-' :: Nat.toDigits 10 (n + 1) ∧ next (p ++ '-' :: Nat.toDigits 10 1) = p ++ ['0'] := by
  have h := parse_neg (Nat.toDigits 10 (n + 2)) Nat.toDigits_ne_nil (digits_all _)
  have h1 := parse_neg (Nat.toDigits 10 1) Nat.toDigits_ne_nil (digits_all _)
  simp only [Nat.ofDigitChars_toDigits (b := 10) (by norm_num) (by norm_num)] at h h1
  constructor
  · simp only [next, find_stem p _ hp _ h]
    congr 1
    have : -((n + 2 : ℕ) : ℤ) + 1 = -((n + 1 : ℕ) : ℤ) := by push_cast; ring
    rw [this]
    unfold str
    rw [if_pos (by push_cast; omega)]
    simp only [Int.natAbs_neg, Int.natAbs_natCast]
  · simp only [next, find_stem p _ hp _ h1]
    congr 1

/-- C200.  Setting the short name: a name that is too long is accepted; after it, a name within the limit is refused and the old one is cut, and another one that is too long is cut. -/
theorem limit_exact (max : ℕ) (cur v : Text) : (cur.length ≤ max ∨ v = cur → assign max cur v = v) ∧ (max < cur.length → v ≠ cur → v.length ≤ max → assign max cur v = cur.take max) ∧
    (max < cur.length → v ≠ cur → max < v.length → assign max cur v = v.take max) := by
  have hshort : ∀ a b : Text, a.length ≤ max → assign max a b = b := by
    intro a b h
    unfold assign
    split
    · rename_i e; exact e.symm
    · rw [dif_neg (by omega)]
  refine ⟨?_, ?_, ?_⟩
  · rintro (h | rfl)
    · exact hshort _ _ h
    · unfold assign; simp
  · intro h hv hl
    unfold assign
    rw [if_neg hv, dif_pos h, hshort _ _ hl]
  · intro h hv hl
    unfold assign
    rw [if_neg hv, dif_pos h]
    unfold assign
    have : cur.take max ≠ v := by intro e; rw [← e] at hl; simp at hl
    rw [if_neg this, dif_pos hl, hshort _ _ (by simp)]

/-- C200.  With the short name the program starts with and the limit of six, the eleventh mask has the name of the first again. -/
theorem short_repeats : (nextShort 6)^[9] "Nonam1".toList = "Nonam10".toList ∧ (nextShort 6)^[10] "Nonam1".toList = "Nonam1".toList := by
  have hp : Stem "Nonam".toList := by intro c hc; simp at hc; subst hc; decide
  have hn : ∀ i : ℕ, next ("Nonam".toList ++ Nat.toDigits 10 i) = "Nonam".toList ++ Nat.toDigits 10 (i + 1) := by
    intro i
    have := counts "Nonam".toList (Nat.toDigits 10 i) hp Nat.toDigits_ne_nil (digits_all i) 0
    simpa [Nat.ofDigitChars_toDigits (b := 10) (by norm_num) (by norm_num)] using this
  have hstep : ∀ i : ℕ, i < 10 → nextShort 6 ("Nonam".toList ++ Nat.toDigits 10 i) = "Nonam".toList ++ Nat.toDigits 10 (i + 1) := by
    intro i hi
    unfold nextShort
    rw [hn]
    apply (limit_exact 6 _ _).1
    left
    have : (Nat.toDigits 10 i).length ≤ 1 := by rw [Nat.length_toDigits_le_iff (by omega) (by omega)]; omega
    simp only [List.length_append]
    have : "Nonam".toList.length = 5 := rfl
    omega
  have h9 : (nextShort 6)^[9] "Nonam1".toList = "Nonam10".toList := by
    have e1 : "Nonam1".toList = "Nonam".toList ++ Nat.toDigits 10 1 := by rfl
    have key : ∀ n : ℕ, n ≤ 9 → (nextShort 6)^[n] ("Nonam".toList ++ Nat.toDigits 10 1) = "Nonam".toList ++ Nat.toDigits 10 (n + 1) := by
      intro n
      induction n with
      | zero => intro _; rfl
      | succ n ih => intro h; rw [Function.iterate_succ_apply', ih (by omega), hstep (n + 1) (by omega)]
    rw [e1, key 9 (le_refl _)]
    rfl
  refine ⟨h9, ?_⟩
  rw [Function.iterate_succ_apply', h9]
  have e2 : "Nonam10".toList = "Nonam".toList ++ Nat.toDigits 10 10 := by rfl
  have e3 : "Nonam".toList ++ Nat.toDigits 10 11 = "Nonam11".toList := by rfl
  unfold nextShort
  rw [e2, hn, ← e2, e3]
  rw [(limit_exact 6 "Nonam10".toList "Nonam11".toList).2.2 (by decide) (by decide) (by decide)]
  rfl

/-- Cases. -/
theorem example_names : Numbered "spectarg1".toList ∧ Stem "spectarg".toList ∧ ¬ Numbered "mask.in".toList := by
  refine ⟨⟨"spectarg".toList, '1', [], rfl, rfl, rfl⟩, ?_, ?_⟩
  · intro c hc; simp at hc; subst hc; decide
  · rw [← find_none]; rfl

end Verif.MaskNames
